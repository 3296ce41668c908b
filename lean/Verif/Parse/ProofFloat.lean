import Verif.Parse.Proof
import Mathlib.Tactic.Ring
import Mathlib.Tactic.FieldSimp
import Mathlib.Algebra.Order.Field.Basic

namespace Verif.Parse

/-- Sensible format characters: pairwise different, not digits, blanks, signs or NUL. -/
structure Sane (c : FloatCfg) : Prop where
  dec0 : c.decimal ≠ 0
  sci0 : c.sci ≠ 0
  decD : ¬ Digit c.decimal
  sciD : ¬ Digit c.sci
  sepD : ¬ Digit c.tsep
  decB : ¬ Blank c.decimal
  sciB : ¬ Blank c.sci
  sepB : ¬ Blank c.tsep
  decS : c.decimal ≠ 43 ∧ c.decimal ≠ 45
  sciS : c.sci ≠ 43 ∧ c.sci ≠ 45
  decSci : ¬ SameLetter c.decimal c.sci
  sepSci : ¬ SameLetter c.tsep c.sci
  sepDec : c.tsep ≠ c.decimal

theorem toUpper_eq_iff {a b : Nat} : toUpper a = toUpper b ↔ SameLetter a b := by
  unfold toUpper SameLetter
  split <;> split <;> omega

/-- Value of a digit string as a natural number, left to right. -/
def nacc (n : Nat) (ds : List Nat) : Nat := ds.foldl (fun v d => v * 10 + (d - 48)) n

theorem nacc_zero (ds : List Nat) : nacc 0 ds = digitsValue ds := by
  induction ds using List.reverseRecOn with
  | nil => rfl
  | append_singleton ds d ih =>
    rw [digitsValue_append, ← ih]; simp [nacc, List.foldl_append]

theorem nacc_append (n : Nat) (a b : List Nat) : nacc n (a ++ b) = nacc (nacc n a) b := by
  simp [nacc, List.foldl_append]

theorem Grouped.digits {tsep : Nat} {t ds : List Nat} (h : Grouped tsep t ds) :
    ∀ c ∈ ds, Digit c := by
  induction h with
  | nil => simp
  | digit hd _ ih => intro c hc; rcases List.mem_cons.mp hc with rfl | hc; exacts [hd, ih c hc]
  | sep hd _ _ ih => intro c hc; rcases List.mem_cons.mp hc with rfl | hc; exacts [hd, ih c hc]

theorem intPart_other (c : FloatCfg) (l : List Nat) (h : ¬ Digit (cur l)) (num nd : Nat) (ex : Int) :
    intPart c l num nd ex = (num, nd, ex, l) := by
  cases l with
  | nil => simp [intPart]
  | cons d p =>
    have : ¬ isDigit d = true := by rw [isDigit_iff]; exact h
    unfold intPart
    simp [this]

theorem intPart_eq {c : FloatCfg} (hs : Sane c) {t ds : List Nat} (h : Grouped c.tsep t ds)
    (rest : List Nat) (hr : ¬ Digit (cur rest)) (hr' : c.tsep ≠ 0 → cur rest ≠ c.tsep)
    (num nd : Nat) (ex : Int) (hn : nd + ds.length ≤ c.maxDigits) :
    intPart c (t ++ rest) num nd ex = (nacc num ds, nd + ds.length, ex, rest) := by
  induction h generalizing num nd with
  | nil => simp [nacc, intPart_other c rest hr]
  | @digit d t ds hd hg ih =>
    simp only [List.length_cons] at hn
    have hlt : nd < c.maxDigits := by omega
    have := ih (num * 10 + (d - 48)) (nd + 1) (by omega)
    rw [List.cons_append]
    unfold intPart
    rw [if_pos (isDigit_iff.mpr hd)]
    simp only [if_pos hlt]
    have key : ∀ q, (t ++ rest) = q → q ≠ [] → c.tsep ≠ 0 → cur q ≠ c.tsep := by
      intro q hq hne h0
      cases hg with
      | nil => rw [← hq]; exact hr' h0
      | digit h1 _ => rw [← hq]; intro h2; apply hs.sepD; rw [← h2]; exact h1
      | sep h1 _ _ => rw [← hq]; intro h2; apply hs.sepD; rw [← h2]; exact h1
    have hres : intPart c (t ++ rest) (num * 10 + (d - 48)) (nd + 1) ex
        = (nacc num (d :: ds), nd + (ds.length + 1), ex, rest) := by
      rw [this]
      simp only [nacc, List.foldl_cons, Prod.mk.injEq, and_true, true_and]; omega
    rw [List.length_cons]
    cases hq : t ++ rest with
    | nil =>
      rw [hq] at hres
      simpa [intPart] using hres
    | cons s q =>
      rw [hq] at hres
      have := key _ hq (by simp)
      simp only
      rw [if_neg, hres]
      rintro ⟨h1, h2⟩
      exact this h1 h2
  | @sep d t ds hd h0 hg ih =>
    simp only [List.length_cons] at hn
    have hlt : nd < c.maxDigits := by omega
    have := ih (num * 10 + (d - 48)) (nd + 1) (by omega)
    rw [List.cons_append, List.cons_append]
    unfold intPart
    rw [if_pos (isDigit_iff.mpr hd)]
    simp only [if_pos hlt]
    rw [if_pos ⟨h0, trivial⟩, this]
    simp only [nacc, List.foldl_cons, List.length_cons, Prod.mk.injEq, and_true, true_and]; omega

theorem fracPart_other (c : FloatCfg) (l : List Nat) (h : ¬ Digit (cur l)) (num nd dec : Nat) :
    fracPart c l num nd dec = (num, nd, dec, l) := by
  cases l with
  | nil => simp [fracPart]
  | cons d p =>
    have : ¬ isDigit d = true := by rw [isDigit_iff]; exact h
    unfold fracPart
    simp [this]

theorem fracPart_eq (c : FloatCfg) (ds : List Nat) (hd : ∀ c ∈ ds, Digit c)
    (rest : List Nat) (hr : ¬ Digit (cur rest)) (num nd dec : Nat)
    (hn : nd + ds.length ≤ c.maxDigits) :
    fracPart c (ds ++ rest) num nd dec = (nacc num ds, nd + ds.length, dec + ds.length, rest) := by
  induction ds generalizing num nd dec with
  | nil => simp [nacc, fracPart_other c rest hr]
  | cons d ds ih =>
    simp only [List.length_cons] at hn
    rw [List.cons_append]
    unfold fracPart
    rw [if_pos ⟨by omega, isDigit_iff.mpr (hd d (by simp))⟩,
      ih (fun c hc => hd c (by simp [hc])) _ _ _ (by omega)]
    simp only [nacc, List.foldl_cons, List.length_cons, Prod.mk.injEq, and_true, true_and]; omega

theorem skipDigits_other (l : List Nat) (h : ¬ Digit (cur l)) : skipDigits l = l := by
  cases l with
  | nil => rfl
  | cons d p =>
    have : ¬ isDigit d = true := by rw [isDigit_iff]; exact h
    unfold skipDigits
    simp [this]

theorem expDigits_eq (c : FloatCfg) (ds : List Nat) (hd : ∀ c ∈ ds, Digit c)
    (rest : List Nat) (hr : ¬ Digit (cur rest)) (n : Int) (nd : Nat) (h0 : 0 ≤ n)
    (hn : nd + ds.length ≤ c.maxDigits) (hb : acc n ds ≤ 2147483647) :
    expDigits c (ds ++ rest) n nd = some (acc n ds, nd + ds.length, rest) := by
  induction ds generalizing n nd with
  | nil =>
    cases rest with
    | nil => simp [expDigits, acc]
    | cons d p =>
      have : ¬ isDigit d = true := by rw [isDigit_iff]; exact hr
      simp [expDigits, this, acc]
  | cons d ds ih =>
    simp only [List.length_cons] at hn
    have hD := hd d (by simp)
    have hds : ∀ c ∈ ds, Digit c := fun c hc => hd c (by simp [hc])
    rw [acc_cons] at hb
    have hge := acc_ge ds hds (n * 10 + ((d : Int) - 48)) (by unfold Digit at hD; omega)
    rw [List.cons_append]
    unfold expDigits
    rw [if_pos ⟨by omega, isDigit_iff.mpr hD⟩, if_pos,
      ih hds _ _ (by unfold Digit at hD; omega) (by omega) hb, acc_cons]
    · simp only [List.length_cons, Option.some.injEq, Prod.mk.injEq, and_true, true_and]; omega
    · unfold Digit at hD
      have h3 : int32.fits (n * 10) = true := decide_eq_true (by simp only [int32]; omega)
      have h4 : int32.fits (n * 10 + ((d : Int) - 48)) = true :=
        decide_eq_true (by simp only [int32]; omega)
      rw [h3, h4]; rfl

theorem scale_eq (c : FloatCfg) (v : Rat) (e : Int) (hm : 0 ≤ c.maxExp)
    (h1 : e ≤ c.maxExp) (h2 : -(2 * c.maxExp) ≤ e) : scale c v e = some (v * 10 ^ e) := by
  unfold scale
  rw [if_neg (by omega)]
  by_cases h3 : e > 0
  · rw [if_pos h3]
    obtain ⟨k, rfl⟩ := Int.eq_ofNat_of_zero_le (Int.le_of_lt h3)
    simp
  · rw [if_neg h3]
    obtain ⟨k, hk⟩ := Int.eq_ofNat_of_zero_le (show 0 ≤ -e by omega)
    have he : e = -(k : Int) := by omega
    by_cases h4 : e < -c.maxExp
    · rw [if_pos h4, if_neg (by omega)]
      obtain ⟨m, hmm⟩ := Int.eq_ofNat_of_zero_le hm
      rw [hmm] at h4 ⊢
      have hk' : (-(m : Int) - e).toNat = k - m := by omega
      rw [hk', he, Int.toNat_natCast]
      have : k = (k - m) + m := by omega
      congr 1
      rw [zpow_neg, zpow_natCast]
      conv_rhs => rw [this, pow_add]
      rw [div_div, ← div_eq_mul_inv]
    · rw [if_neg h4, he]
      simp [div_eq_mul_inv]

/-- What follows the digits of a number: the exponent field or blanks. -/
theorem cur_blank {ws : List Nat} (h : ∀ c ∈ ws, Blank c) : cur ws = 0 ∨ Blank (cur ws) := by
  cases ws with
  | nil => left; rfl
  | cons a l => right; exact h a (by simp)

theorem skipSpace_blank {ws : List Nat} (h : ∀ c ∈ ws, Blank c) : skipSpace ws = [] := by
  rw [skipSpace_eq]; exact dropWhile_all (fun c hc => isSpace_iff.mpr (h c hc))

theorem cur_exp {sci : Nat} {ep : List Nat} {ex : Int} {ne : Nat} (h : ExpField sci ep ex ne)
    {ws : List Nat} (hw : ∀ c ∈ ws, Blank c) :
    SameLetter (cur (ep ++ ws)) sci ∨ cur (ep ++ ws) = 0 ∨ Blank (cur (ep ++ ws)) := by
  rcases h with ⟨rfl, -, -⟩ | ⟨l, sg, ds, rfl, hl, -⟩
  · right; exact cur_blank hw
  · left; exact hl

theorem readSign_sign {sg : List Nat} (hsg : sg = [] ∨ sg = [43] ∨ sg = [45]) (rest : List Nat)
    (h : cur rest ≠ 43 ∧ cur rest ≠ 45) :
    readSign (sg ++ rest) = (decide (sg = [45]), rest) := by
  rcases hsg with rfl | rfl | rfl
  · cases rest with
    | nil => rfl
    | cons a l =>
      simp only [cur, List.headD_cons] at h
      simp [readSign, h.1, h.2]
  · rfl
  · rfl

/-- A grammatical decimal number is read exactly. -/
theorem parseFloat_complete {c : FloatCfg} (hs : Sane c) (hm : 0 ≤ c.maxExp) (hm' : c.maxExp ≤ 1000)
    (hM : c.maxDigits ≤ 1000)
    {s : List Nat} {v : Rat} {ni ne : Nat} {e : Int}
    (h : FloatCell c.decimal c.sci c.tsep s v ni ne e)
    (hni : ni ≤ c.maxDigits) (hne : ne ≤ c.maxDigits) (h1 : e ≤ c.maxExp)
    (h2 : -(2 * c.maxExp) ≤ e) :
    ∃ rest, parseFloat c s = .ok v rest ∧ (∀ x ∈ rest, Blank x) ∧ (c.skipTrailing = true → rest = []) := by
  obtain ⟨ws, sg, ip, ids, fp, fds, ep, ex, ws', rfl, hws, hws', hsg, hip, hfp, hfds, hpos, hep, rfl,
    rfl, rfl⟩ := h
  -- facts about the character behind the digits
  have hcE := cur_exp hep hws'
  have hE_dig : ¬ Digit (cur (ep ++ ws')) := by
    rcases hcE with h | h | h
    · have := hs.sciD; unfold SameLetter at h; unfold Digit at *; omega
    · rw [h]; unfold Digit; omega
    · unfold Digit; unfold Blank at h; omega
  have hE_sep : c.tsep ≠ 0 → cur (ep ++ ws') ≠ c.tsep := by
    intro h0 heq
    rw [heq] at hcE
    rcases hcE with h | h | h
    · exact hs.sepSci h
    · exact h0 h
    · exact hs.sepB h
  have hE_dec : cur (ep ++ ws') ≠ c.decimal := by
    intro heq
    rw [heq] at hcE
    rcases hcE with h | h | h
    · exact hs.decSci h
    · exact hs.dec0 h
    · exact hs.decB h
  have hE_sgn : cur (ep ++ ws') ≠ 43 ∧ cur (ep ++ ws') ≠ 45 := by
    have := hs.sciS
    rcases hcE with h | h | h
    · have h3 := hs.sciD; unfold SameLetter at h; unfold Digit at h3; omega
    · rw [h]; omega
    · unfold Blank at h; omega
  have hF_dig : ¬ Digit (cur (fp ++ (ep ++ ws'))) := by
    rcases hfp with ⟨rfl, -⟩ | rfl
    · exact hE_dig
    · exact hs.decD
  have hF_sep : c.tsep ≠ 0 → cur (fp ++ (ep ++ ws')) ≠ c.tsep := by
    rcases hfp with ⟨rfl, -⟩ | rfl
    · exact hE_sep
    · intro _; exact fun h => hs.sepDec h.symm
  have hI : Digit (cur (ip ++ (fp ++ (ep ++ ws')))) ∨
      cur (ip ++ (fp ++ (ep ++ ws'))) = c.decimal := by
    cases hip with
    | nil =>
      right
      rcases hfp with ⟨rfl, rfl⟩ | rfl
      · simp at hpos
      · rfl
    | digit h1 _ => left; exact h1
    | sep h1 _ _ => left; exact h1
  have hI_sgn : cur (ip ++ (fp ++ (ep ++ ws'))) ≠ 43 ∧ cur (ip ++ (fp ++ (ep ++ ws'))) ≠ 45 := by
    have := hs.decS
    rcases hI with h | h
    · unfold Digit at h; omega
    · rw [h]; exact this
  have hI_sp : ¬ Blank (cur (ip ++ (fp ++ (ep ++ ws')))) := by
    rcases hI with h | h
    · unfold Digit at h; unfold Blank; omega
    · rw [h]; exact hs.decB
  -- leading blanks
  have hskip : skipSpace (ws ++ (sg ++ (ip ++ (fp ++ (ep ++ ws'))))) = sg ++ (ip ++ (fp ++ (ep ++ ws'))) := by
    rw [skipSpace_eq, dropWhile_append_all (fun c hc => isSpace_iff.mpr (hws c hc))]
    generalize ip ++ (fp ++ (ep ++ ws')) = q at hI hI_sp
    have hne : q ≠ [] := by
      rintro rfl
      rcases hI with h | h
      · simp [cur, Digit] at h
      · exact hs.dec0 (by simpa [cur] using h.symm)
    rcases hsg with rfl | rfl | rfl
    · cases q with
      | nil => exact absurd rfl hne
      | cons a l =>
        rw [List.nil_append, List.dropWhile_cons_of_neg]
        rw [isSpace_iff]; exact hI_sp
    · rfl
    · rfl
  have hsign := readSign_sign hsg _ hI_sgn
  have hint := intPart_eq hs hip (fp ++ (ep ++ ws')) hF_dig hF_sep 0 0 0 (by omega)
  unfold parseFloat
  rw [hskip]
  dsimp only
  rw [hsign]
  dsimp only
  rw [hint]
  dsimp only
  -- decimals
  have hub : ¬ (cur (fp ++ (ep ++ ws')) = c.decimal ∧ fp ++ (ep ++ ws') = []) := by
    rintro ⟨ha, hb⟩
    rw [hb] at ha
    exact hs.dec0 ha.symm
  rw [if_neg hub]
  have hfrac : (if cur (fp ++ (ep ++ ws')) = c.decimal then
      ((fracPart c (List.drop 1 (fp ++ (ep ++ ws'))) (nacc 0 ids) (0 + ids.length) 0).1,
        (fracPart c (List.drop 1 (fp ++ (ep ++ ws'))) (nacc 0 ids) (0 + ids.length) 0).2.1,
        (0 : Int) - ((fracPart c (List.drop 1 (fp ++ (ep ++ ws'))) (nacc 0 ids) (0 + ids.length) 0).2.2.1 : Nat),
        if (fracPart c (List.drop 1 (fp ++ (ep ++ ws'))) (nacc 0 ids) (0 + ids.length) 0).2.1 ≥ c.maxDigits then
          skipDigits (fracPart c (List.drop 1 (fp ++ (ep ++ ws'))) (nacc 0 ids) (0 + ids.length) 0).2.2.2
        else (fracPart c (List.drop 1 (fp ++ (ep ++ ws'))) (nacc 0 ids) (0 + ids.length) 0).2.2.2)
      else (nacc 0 ids, 0 + ids.length, 0, fp ++ (ep ++ ws')))
      = (digitsValue (ids ++ fds), ids.length + fds.length, -(fds.length : Int), ep ++ ws') := by
    rcases hfp with ⟨rfl, rfl⟩ | rfl
    · rw [if_neg (by simpa using hE_dec)]
      simp [nacc_zero]
    · rw [if_pos (show cur (c.decimal :: fds ++ (ep ++ ws')) = c.decimal from rfl)]
      simp only [List.cons_append, List.drop_succ_cons, List.drop_zero]
      rw [fracPart_eq c fds hfds (ep ++ ws') hE_dig _ _ _ (by omega), ← nacc_append, nacc_zero]
      simp only [skipDigits_other _ hE_dig, ite_self]
      simp
  rw [hfrac]
  dsimp only
  rw [if_neg hpos]
  have hval : (if decide (sg = [45]) = true then -((digitsValue (ids ++ fds) : Nat) : Rat)
      else ((digitsValue (ids ++ fds) : Nat) : Rat))
      = (if sg = [45] then -1 else 1) * (digitsValue (ids ++ fds) : Rat) := by
    by_cases h : sg = [45] <;> simp [h]
  rw [hval]
  -- exponent
  rcases hep with ⟨rfl, rfl, rfl⟩ | ⟨l, sg', ds, rfl, hl, hsg', hne0, hds, rfl, rfl⟩
  · have hno : ¬ toUpper (cur ([] ++ ws')) = toUpper c.sci := by
      rw [toUpper_eq_iff, List.nil_append]
      intro h
      rcases cur_blank hws' with h3 | h3
      · rw [h3] at h; have := hs.sci0; unfold SameLetter at h; omega
      · have h4 := hs.sciB; unfold SameLetter at h; unfold Blank at *; omega
    rw [if_neg hno, show (-(fds.length : Int)) = 0 - fds.length by omega, scale_eq c _ _ hm h1 h2]
    refine ⟨_, rfl, ?_, ?_⟩
    · intro x hx
      rw [List.nil_append] at hx
      split at hx
      · rw [skipSpace_blank hws'] at hx; simp at hx
      · exact hws' x hx
    · intro ht
      rw [if_pos ht, List.nil_append]; exact skipSpace_blank hws'
  · have hyes : toUpper (cur (l :: (sg' ++ ds) ++ ws')) = toUpper c.sci := by
      rw [toUpper_eq_iff]; exact hl
    rw [if_pos hyes, if_neg (by simp)]
    simp only [List.cons_append, List.drop_succ_cons, List.drop_zero, List.append_assoc]
    have hW : ¬ Digit (cur ws') := by
      rcases cur_blank hws' with h3 | h3
      · rw [h3]; unfold Digit; omega
      · unfold Digit; unfold Blank at h3; omega
    have hdsg : cur (ds ++ ws') ≠ 43 ∧ cur (ds ++ ws') ≠ 45 := by
      cases ds with
      | nil => exact absurd rfl hne0
      | cons a l =>
        have := hds a (by simp)
        unfold Digit at this
        simp only [List.cons_append, cur, List.headD_cons]; omega
    rw [readSign_sign hsg' _ hdsg]
    dsimp only
    have hacc := acc_zero ds hds
    have hbound : (digitsValue ds : Int) ≤ 5000 := by
      by_cases h : sg' = [45]
      · rw [if_pos h] at h1 h2; omega
      · rw [if_neg h] at h1 h2; omega
    rw [expDigits_eq c ds hds ws' hW 0 0 (Int.le_refl _) (by omega) (by omega)]
    dsimp only
    have hlen : ¬ (0 + ds.length = 0) := by
      have := List.length_pos_iff.mpr hne0; omega
    have hex : (if decide (sg' = [45]) = true then -(fds.length : Int) - acc 0 ds
        else -(fds.length : Int) + acc 0 ds)
        = (if sg' = [45] then -1 else 1) * (digitsValue ds : Int) - fds.length := by
      rw [hacc]
      by_cases h : sg' = [45]
      · simp only [h, decide_true, if_true]; omega
      · simp only [h, decide_false, Bool.false_eq_true, if_false]; omega
    rw [hex, if_neg hlen, if_pos, scale_eq c _ _ hm h1 h2]
    · refine ⟨_, rfl, ?_, ?_⟩
      · intro x hx
        split at hx
        · rw [skipSpace_blank hws'] at hx; simp at hx
        · exact hws' x hx
      · intro ht
        rw [if_pos ht]; exact skipSpace_blank hws'
    · exact decide_eq_true (by simp only [int32]; omega)

end Verif.Parse
