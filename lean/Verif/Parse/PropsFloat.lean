import Verif.Parse.ProofFloat
import Verif.Parse.Props

namespace Verif.Parse

/-- C45, in full, for the `double` reader in its default configuration: it never has
undefined behaviour and it succeeds with the value `v` (here in exact arithmetic) exactly
on the texts that denote a number `v` of at most 17 digits with a power of ten between
-616 and 308. -/
def C45_statement : Prop :=
  ∀ s : List Nat, 0 ∉ s →
    parseFloat doubleCfg s ≠ .ub ∧
    ∀ v, (∃ rest, parseFloat doubleCfg s = .ok v rest) ↔
      ∃ ni ne e, FloatCell 46 69 0 s v ni ne e ∧ ni ≤ 17 ∧ -616 ≤ e ∧ e ≤ 308

/-- It is violated: text after a number is ignored, so dates and identifiers are read as
numbers; a large exponent overflows an `int`; leading zeros use up the 17 digits; zero with a
large exponent is refused. -/
theorem C45_rubbish_accepted :
    parseFloat doubleCfg (bytes "12abc") = .ok 12 (bytes "abc") ∧
    parseFloat doubleCfg (bytes "2020-01-02") = .ok 2020 (bytes "-01-02") ∧
    parseFloat doubleCfg (bytes "1.2.3.4") = .ok (12/10) (bytes ".3.4") := by decide +kernel

theorem C45_exponent_overflow : parseFloat doubleCfg (bytes "1e3000000000") = .ub ∧
    parseFloat doubleCfg (bytes "5E-2147483648") = .ub := by decide +kernel

theorem C45_leading_zeros :
    parseFloat doubleCfg (bytes "0.000000000000000012") = .ok 0 [] ∧
    parseFloat doubleCfg (bytes "000000000000000001") = .ok 0 [] := by decide +kernel

theorem C45_violated : ¬ C45_statement := by
  intro h
  exact (h (bytes "1e3000000000") (by decide +kernel)).1 C45_exponent_overflow.1

/-- An empty `decimal` or `scientific notation character` option makes the reader run
past the end of every string. -/
theorem C45_empty_option :
    parseFloat { doubleCfg with decimal := 0 } (bytes "12") = .ub ∧
    parseFloat { doubleCfg with sci := 0 } (bytes "12") = .ub := by decide +kernel

/-- Numbers are read exactly: for every choice of sensible format characters, every text
that denotes a number with at most `maxDigits` digits, at most `maxDigits` exponent digits and
a power of ten in range is accepted with exactly the value it denotes, and all of it but
trailing blanks is consumed (missing for the full statement: rejection of other texts, which
does not hold, and rounding, which is not modelled). -/
theorem C45_real_cells_partial (c : FloatCfg) (hs : Sane c) (hm : 0 ≤ c.maxExp)
    (hm' : c.maxExp ≤ 1000) (hM : c.maxDigits ≤ 1000)
    (s : List Nat) (v : Rat) (ni ne : Nat) (e : Int)
    (h : FloatCell c.decimal c.sci c.tsep s v ni ne e)
    (hni : ni ≤ c.maxDigits) (hne : ne ≤ c.maxDigits) (h1 : e ≤ c.maxExp)
    (h2 : -(2 * c.maxExp) ≤ e) :
    ∃ rest, parseFloat c s = .ok v rest ∧ (∀ x ∈ rest, Blank x) ∧
      (c.skipTrailing = true → rest = []) :=
  parseFloat_complete hs hm hm' hM h hni hne h1 h2

theorem sane_double : Sane doubleCfg := by
  constructor <;> simp only [doubleCfg, Digit, Blank, SameLetter] <;> omega

theorem sane_float : Sane floatCfg := by
  constructor <;> simp only [floatCfg, doubleCfg, Digit, Blank, SameLetter] <;> omega

example : FloatCell 46 69 0 (bytes " -12.50e-3\t") (-(1250 / 100000)) 4 1 (-5) :=
  ⟨bytes " ", bytes "-", bytes "12", bytes "12", bytes ".50", bytes "50", bytes "e-3", -3, bytes "\t",
    by decide, by decide, by decide, by decide,
    .digit (by decide) (.digit (by decide) .nil), Or.inr rfl, by decide, by decide,
    Or.inr ⟨101, [45], [51], by decide, by unfold SameLetter; decide, by decide, by decide, by decide,
      by decide, by decide⟩,
    by decide, by decide, by decide +kernel⟩

example : parseFloat doubleCfg (bytes " -12.50e-3\t") = .ok (-(1250 / 100000)) [] ∧
    parseFloat { floatCfg with tsep := 44 } (bytes "+1,234.5") = .ok (12345 / 10) [] ∧
    parseFloat doubleCfg (bytes ".") = .err ∧ parseFloat doubleCfg (bytes "1e400") = .err := by
  decide +kernel

end Verif.Parse
