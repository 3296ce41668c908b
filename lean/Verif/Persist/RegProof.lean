import Verif.Persist.FileProof
set_option linter.unusedSimpArgs false
namespace Verif.Persist

/-! ### The option registry -/

def regEnc1 (p : List Byte × Val) : List Byte := enc .str p.1 ++ enc p.2.1 p.2.2

def regEnc (r : Reg) : List Byte := enc ti (r.length : Int) ++ r.flatMap regEnc1

/-- Option names and values exist at run time. -/
def RegValid (bits : Nat) (r : Reg) : Prop :=
  r.length ≤ imax bits ∧ ∀ p ∈ r, Valid bits .str p.1 ∧ Valid bits p.2.1 p.2.2

theorem regSize_eq (r : Reg) : regSize r = (regEnc r).length := by
  have : ∀ (r : Reg) (n : Nat), r.foldl (fun (n : Nat) p => n + getSize .str p.1 + getSize p.2.1 p.2.2) n = n + (r.flatMap regEnc1).length := by
    intro r
    induction r with
    | nil => intro n; rfl
    | cons p r ih =>
      intro n
      simp only [List.foldl_cons, List.flatMap_cons, List.length_append, regEnc1]
      rw [ih, getSize_eq, getSize_eq]
      omega
  simp only [regSize, regEnc, List.length_append]
  rw [this, ← getSize_eq]
  rfl

theorem regSer1_ok {size : Nat} (p : List Byte × Val) (buf : List Byte) (h : buf.length + (regEnc1 p).length ≤ size) :
    regSer1 size p buf = (.ok, buf ++ regEnc1 p) := by
  simp only [regEnc1, List.length_append] at h
  simp only [regSer1, regEnc1]
  rw [ser_ok .str p.1 buf (by omega)]
  dsimp only
  rw [ser_ok p.2.1 p.2.2 _ (by simp only [List.length_append]; omega), List.append_assoc]

theorem regSer1_fail {size : Nat} (p : List Byte × Val) (buf : List Byte) (h0 : buf.length ≤ size) (h : ¬ buf.length + (regEnc1 p).length ≤ size) :
    (regSer1 size p buf).1 = .internal ∧ (regSer1 size p buf).2.length ≤ size := by
  simp only [regEnc1, List.length_append] at h
  simp only [regSer1]
  by_cases h1 : buf.length + (enc .str p.1).length ≤ size
  · rw [ser_ok .str p.1 buf h1]
    exact ser_fail p.2.1 p.2.2 _ (by simpa using h1) (by simp only [List.length_append]; omega)
  · obtain ⟨h2, h3⟩ := ser_fail .str p.1 buf h0 h1
    cases hr : ser size .str p.1 buf with
    | mk s b =>
      rw [hr] at h2 h3
      simp only at h2 h3
      subst h2
      exact ⟨rfl, h3⟩

theorem regSer_ok {size : Nat} (r : Reg) (buf : List Byte) (h : buf.length + (regEnc r).length ≤ size) :
    regSer size r buf = (.ok, buf ++ regEnc r) := by
  simp only [regEnc, List.length_append] at h
  simp only [regSer, regEnc]
  rw [ser_ok ti _ buf (by omega)]
  dsimp only
  rw [serLoop_ok (fun p b hb => regSer1_ok p b hb) r _ (by simp only [List.length_append]; omega), List.append_assoc]

theorem regSer_fail {size : Nat} (r : Reg) (buf : List Byte) (h0 : buf.length ≤ size) (h : ¬ buf.length + (regEnc r).length ≤ size) :
    (regSer size r buf).1 = .internal ∧ (regSer size r buf).2.length ≤ size := by
  simp only [regEnc, List.length_append] at h
  simp only [regSer]
  by_cases h1 : buf.length + (enc ti (r.length : Int)).length ≤ size
  · rw [ser_ok ti _ buf h1]
    exact serLoop_fail (fun p b hb => regSer1_ok p b hb) (fun p b => regSer1_fail p b) r _ (by simpa using h1)
      (by simp only [List.length_append]; omega)
  · obtain ⟨h2, h3⟩ := ser_fail ti (r.length : Int) buf h0 h1
    cases hr : ser size ti (r.length : Int) buf with
    | mk s b =>
      rw [hr] at h2 h3
      simp only at h2 h3
      subst h2
      exact ⟨rfl, h3⟩

theorem get_set (r : Reg) (k k' : List Byte) (v : Val) :
    (r.set k v).get k' = if k' = k then (r.get k).map (fun _ => v) else r.get k' := by
  induction r with
  | nil => simp [Reg.get, Reg.set]
  | cons p r ih =>
    simp only [Reg.get, Reg.set, List.map_cons] at ih ⊢
    by_cases h1 : p.1 = k
    · subst h1
      by_cases h2 : k' = p.1
      · subst h2; simp
      · simp only [h2, if_false, if_true] at ih ⊢
        rw [List.find?_cons_of_neg (by simpa using fun h => h2 h.symm), List.find?_cons_of_neg (by simpa using fun h => h2 h.symm)]
        exact ih
    · simp only [h1, if_false]
      by_cases h3 : p.1 = k'
      · subst h3
        rw [if_neg h1]; simp
      · rw [List.find?_cons_of_neg (by simpa using h3), ih]
        split
        · rename_i h4; subst h4
          rw [List.find?_cons_of_neg (by simpa using h3)]
        · rw [List.find?_cons_of_neg (by simpa using h3)]

theorem set_length (r : Reg) (k : List Byte) (v : Val) : (r.set k v).length = r.length := by simp [Reg.set]

/-- All options of `s` set in `r`. -/
def setAll (r s : Reg) : Reg := s.foldl (fun (r : Reg) p => r.set p.1 p.2) r

/-- The options of `s` are options of `r`, with the same types. -/
def Compat (r s : Reg) : Prop := ∀ p ∈ s, ∃ v, r.get p.1 = some ⟨p.2.1, v⟩

theorem compat_set {r s : Reg} {p : List Byte × Val} (h : Compat r (p :: s)) : Compat (r.set p.1 p.2) s := by
  intro q hq
  obtain ⟨v, hv⟩ := h q (by simp [hq])
  rw [get_set]
  split
  · rename_i h1
    rw [h1] at hv
    obtain ⟨v', hv'⟩ := h p (by simp)
    rw [hv'] at hv ⊢
    simp only [Option.some.injEq, Sigma.mk.injEq] at hv
    obtain ⟨h2, -⟩ := hv
    refine ⟨h2 ▸ p.2.2, ?_⟩
    obtain ⟨k, t, w⟩ := p
    obtain ⟨k', t', w'⟩ := q
    simp only at h2
    subst h2
    rfl
  · exact ⟨v, hv⟩

theorem setAll_get : ∀ (s r : Reg), Compat r s → (s.map (·.1)).Nodup → ∀ k,
    (setAll r s).get k = if (Reg.get s k).isSome then Reg.get s k else r.get k := by
  intro s
  induction s with
  | nil => intro r _ _ k; simp [setAll, Reg.get]
  | cons p s ih =>
    intro r hc hn k
    simp only [List.map_cons, List.nodup_cons] at hn
    have h1 := ih (r.set p.1 p.2) (compat_set hc) hn.2 k
    have h2 : setAll r (p :: s) = setAll (r.set p.1 p.2) s := rfl
    rw [h2, h1, get_set]
    by_cases hk : p.1 = k
    · subst hk
      have h3 : Reg.get s p.1 = none := by
        simp only [Reg.get, Option.map_eq_none_iff, List.find?_eq_none]
        intro q hq hq2
        exact hn.1 (List.mem_map.2 ⟨q, hq, by simpa using hq2⟩)
      have h4 : Reg.get (p :: s) p.1 = some p.2 := by simp [Reg.get]
      obtain ⟨v, hv⟩ := hc p (by simp)
      rw [h3, h4, hv]
      simp
    · have h4 : Reg.get (p :: s) k = Reg.get s k := by
        simp only [Reg.get]
        rw [List.find?_cons_of_neg (by simpa using hk)]
      rw [h4]
      split
      · rfl
      · rw [if_neg (fun h => hk h.symm)]

theorem regLoop_ok {bits : Nat} (hb : Width bits) : ∀ (s r : Reg) (pre post : List Byte), Compat r s →
    (∀ p ∈ s, Valid bits .str p.1 ∧ Valid bits p.2.1 p.2.2) →
      regLoop bits (pre ++ s.flatMap regEnc1 ++ post) s.length r pre.length =
        (.ok, setAll r s, pre.length + (s.flatMap regEnc1).length) := by
  intro s
  induction s with
  | nil => intro r pre post _ _; simp [regLoop, setAll]
  | cons p s ih =>
    intro r pre post hc hv
    obtain ⟨v, hg⟩ := hc p (by simp)
    obtain ⟨hv1, hv2⟩ := hv p (by simp)
    have h1 := des_ok hb .str p.1 [] pre (enc p.2.1 p.2.2 ++ s.flatMap regEnc1 ++ post) hv1
    have h2 := des_ok hb p.2.1 p.2.2 v (pre ++ enc .str p.1) (s.flatMap regEnc1 ++ post) hv2
    have h3 := ih (r.set p.1 p.2) (pre ++ enc .str p.1 ++ enc p.2.1 p.2.2) post (compat_set hc) (fun q hq => hv q (by simp [hq]))
    simp only [List.append_assoc, List.length_append] at h1 h2 h3
    simp only [List.flatMap_cons, regEnc1, List.append_assoc, List.length_append, List.length_cons] at h3 ⊢
    rw [regLoop, h1]
    dsimp only
    rw [hg]
    dsimp only
    rw [h2]
    dsimp only
    simp only [Nat.add_assoc] at h3 ⊢
    exact h3

theorem compat_length {r s : Reg} (hc : Compat r s) (hn : (s.map (·.1)).Nodup) : s.length ≤ r.length := by
  have h1 : (s.map (·.1)) ⊆ (r.map (·.1)) := by
    intro k hk
    obtain ⟨p, hp, rfl⟩ := List.mem_map.1 hk
    obtain ⟨v, hv⟩ := hc p hp
    simp only [Reg.get, Option.map_eq_some_iff] at hv
    obtain ⟨q, hq, -⟩ := hv
    have h2 := List.find?_some hq
    have h3 := List.mem_of_find?_eq_some hq
    exact List.mem_map.2 ⟨q, h3, by simpa using h2⟩
  have := (hn.subperm h1).length_le
  simpa using this

theorem valid_len {bits n : Nat} (h : n ≤ imax bits) : Valid bits ti (n : Int) := by
  simp only [Valid]
  have : (imax bits : Int) < (2 : Int) ^ (bits - 1) := by
    have h1 : 1 ≤ 2 ^ (bits - 1) := Nat.one_le_two_pow
    have h2 : imax bits < 2 ^ (bits - 1) := by simp only [imax]; omega
    exact_mod_cast h2
  show @LE.le Int _ (-(2 : Int) ^ (bits - 1)) (n : Int) ∧ @LT.lt Int _ (n : Int) ((2 : Int) ^ (bits - 1))
  omega

theorem regDes_ok {bits : Nat} (hb : Width bits) (s r : Reg) (pre post : List Byte) (hc : Compat r s)
    (hn : (s.map (·.1)).Nodup) (hv : RegValid bits s) :
    regDes bits (pre ++ regEnc s ++ post) r pre.length = (.ok, setAll r s, pre.length + (regEnc s).length) := by
  have h1 := des_ok hb ti (s.length : Int) (0 : Int) pre (s.flatMap regEnc1 ++ post) (valid_len hv.1)
  have h2 := regLoop_ok hb s r (pre ++ enc ti (s.length : Int)) post hc hv.2
  have h3 := compat_length hc hn
  simp only [List.append_assoc, List.length_append] at h1 h2
  simp only [regDes, regEnc, List.append_assoc, List.length_append]
  rw [h1]
  dsimp only
  have h4 : ¬ (@LT.lt Int _ (r.length : Int) (s.length : Int) ∨ @LT.lt Int _ (s.length : Int) 0) := by omega
  rw [if_neg h4]
  have h5 : Int.toNat (s.length : Int) = s.length := rfl
  rw [h5, h2]
  simp only [Nat.add_assoc]

theorem regLoop_trunc {bits : Nat} (hb : Width bits) : ∀ (s r : Reg) (pre : List Byte) (k : Nat), Compat r s →
    (∀ p ∈ s, Valid bits .str p.1 ∧ Valid bits p.2.1 p.2.2) → k < (s.flatMap regEnc1).length →
      (regLoop bits (pre ++ (s.flatMap regEnc1).take k) s.length r pre.length).1 = .invalidFile := by
  intro s
  induction s with
  | nil => intro r pre k _ _ h; simp at h
  | cons p s ih =>
    intro r pre k hc hv hk
    obtain ⟨v, hg⟩ := hc p (by simp)
    obtain ⟨hv1, hv2⟩ := hv p (by simp)
    simp only [List.flatMap_cons, List.length_append, regEnc1] at hk
    rw [List.flatMap_cons, List.length_cons, regLoop, regEnc1, List.append_assoc, List.take_append]
    by_cases hk1 : k < (enc .str p.1).length
    · rw [show k - (enc .str p.1).length = 0 by omega, List.take_zero, List.append_nil]
      have h1 := des_trunc hb .str p.1 [] pre k hv1 hk1
      cases hr : des bits (pre ++ (enc .str p.1).take k) .str [] pre.length with
      | mk s q =>
        rw [hr] at h1
        simp only at h1
        subst h1
        rfl
    · rw [List.take_of_length_le (Nat.le_of_not_lt hk1), List.take_append]
      have h1 := des_ok hb .str p.1 [] pre
        ((enc p.2.1 p.2.2).take (k - (enc .str p.1).length) ++
          (s.flatMap regEnc1).take (k - (enc .str p.1).length - (enc p.2.1 p.2.2).length)) hv1
      simp only [List.append_assoc] at h1
      rw [h1]
      dsimp only
      rw [hg]
      dsimp only
      by_cases hk2 : k - (enc .str p.1).length < (enc p.2.1 p.2.2).length
      · rw [show k - (enc .str p.1).length - (enc p.2.1 p.2.2).length = 0 by omega, List.take_zero, List.append_nil]
        have h2 := des_trunc hb p.2.1 p.2.2 v (pre ++ enc .str p.1) (k - (enc .str p.1).length) hv2 hk2
        simp only [List.append_assoc, List.length_append] at h2
        cases hr : des bits (pre ++ (enc .str p.1 ++ (enc p.2.1 p.2.2).take (k - (enc .str p.1).length))) p.2.1 v
          (pre.length + (enc .str p.1).length) with
        | mk s q =>
          rw [hr] at h2
          simp only at h2
          subst h2
          rfl
      · rw [List.take_of_length_le (Nat.le_of_not_lt hk2)]
        have h2 := des_ok hb p.2.1 p.2.2 v (pre ++ enc .str p.1)
          ((s.flatMap regEnc1).take (k - (enc .str p.1).length - (enc p.2.1 p.2.2).length)) hv2
        simp only [List.append_assoc, List.length_append] at h2
        rw [h2]
        dsimp only
        have h3 := ih (r.set p.1 p.2) (pre ++ enc .str p.1 ++ enc p.2.1 p.2.2)
          (k - (enc .str p.1).length - (enc p.2.1 p.2.2).length) (compat_set hc) (fun q hq => hv q (by simp [hq])) (by omega)
        simp only [List.append_assoc, List.length_append] at h3
        simp only [Nat.add_assoc] at h3 ⊢
        exact h3

theorem regDes_trunc {bits : Nat} (hb : Width bits) (s r : Reg) (pre : List Byte) (k : Nat) (hc : Compat r s)
    (hn : (s.map (·.1)).Nodup) (hv : RegValid bits s) (hk : k < (regEnc s).length) :
    (regDes bits (pre ++ (regEnc s).take k) r pre.length).1 = .invalidFile := by
  simp only [regEnc, List.length_append] at hk
  simp only [regDes, regEnc]
  rw [List.take_append]
  by_cases hk1 : k < (enc ti (s.length : Int)).length
  · rw [show k - (enc ti (s.length : Int)).length = 0 by omega, List.take_zero, List.append_nil]
    have h1 := des_trunc hb ti (s.length : Int) (0 : Int) pre k (valid_len hv.1) hk1
    cases hr : des bits (pre ++ (enc ti (s.length : Int)).take k) ti (0 : Int) pre.length with
    | mk s q =>
      rw [hr] at h1
      simp only at h1
      subst h1
      rfl
  · rw [List.take_of_length_le (Nat.le_of_not_lt hk1)]
    have h1 := des_ok hb ti (s.length : Int) (0 : Int) pre
      ((s.flatMap regEnc1).take (k - (enc ti (s.length : Int)).length)) (valid_len hv.1)
    simp only [List.append_assoc] at h1
    rw [h1]
    dsimp only
    have h3 := compat_length hc hn
    have h4 : ¬ (@LT.lt Int _ (r.length : Int) (s.length : Int) ∨ @LT.lt Int _ (s.length : Int) 0) := by omega
    rw [if_neg h4]
    have h5 : Int.toNat (s.length : Int) = s.length := rfl
    rw [h5]
    have h2 := regLoop_trunc hb s r (pre ++ enc ti (s.length : Int)) (k - (enc ti (s.length : Int)).length) hc hv.2 (by omega)
    simp only [List.append_assoc, List.length_append] at h2
    exact h2

theorem regLoop_safe {bits : Nat} (bytes : List Byte) (hlen : bytes.length ≤ imax bits) : ∀ (k : Nat) (r : Reg) (off : Nat),
    off ≤ bytes.length → Plain (regLoop bits bytes k r off).1 ∧ off ≤ (regLoop bits bytes k r off).2.2 ∧
      (regLoop bits bytes k r off).2.2 ≤ bytes.length := by
  intro k
  induction k with
  | zero => intro r off h; exact ⟨Or.inl rfl, Nat.le_refl _, h⟩
  | succ k ih =>
    intro r off h
    have h1 := des_safe bytes hlen .str [] off h
    rw [regLoop]
    cases hr : des bits bytes .str [] off with
    | mk s q =>
      obtain ⟨key, o⟩ := q
      rw [hr] at h1
      obtain ⟨p1, q1, r1⟩ := h1
      simp only at p1 q1 r1
      rcases p1 with rfl | rfl
      · dsimp only
        cases hg : r.get key with
        | none => exact ⟨Or.inr rfl, q1, r1⟩
        | some v =>
          dsimp only
          have h2 := des_safe bytes hlen v.1 v.2 o r1
          cases hr2 : des bits bytes v.1 v.2 o with
          | mk s2 q2 =>
            obtain ⟨v', o'⟩ := q2
            rw [hr2] at h2
            obtain ⟨p2, q2, r2⟩ := h2
            simp only at p2 q2 r2
            rcases p2 with rfl | rfl
            · have h3 := ih (r.set key ⟨v.1, v'⟩) o' r2
              exact ⟨h3.1, Nat.le_trans (Nat.le_trans q1 q2) h3.2.1, h3.2.2⟩
            · exact ⟨Or.inr rfl, Nat.le_trans q1 q2, r2⟩
      · exact ⟨Or.inr rfl, q1, r1⟩

theorem regDes_safe {bits : Nat} (bytes : List Byte) (hlen : bytes.length ≤ imax bits) (r : Reg) (off : Nat)
    (h : off ≤ bytes.length) : Plain (regDes bits bytes r off).1 ∧ off ≤ (regDes bits bytes r off).2.2 ∧
      (regDes bits bytes r off).2.2 ≤ bytes.length := by
  have h1 := des_safe bytes hlen ti (0 : Int) off h
  rw [regDes]
  cases hr : des bits bytes ti (0 : Int) off with
  | mk s q =>
    obtain ⟨n, o⟩ := q
    rw [hr] at h1
    obtain ⟨p1, q1, r1⟩ := h1
    simp only at p1 q1 r1
    rcases p1 with rfl | rfl
    · dsimp only
      split
      · exact ⟨Or.inr rfl, q1, r1⟩
      · have h3 := regLoop_safe bytes hlen (Int.toNat n) r o r1
        exact ⟨h3.1, Nat.le_trans q1 h3.2.1, h3.2.2⟩
    · exact ⟨Or.inr rfl, q1, r1⟩

/-! ### Metadata -/

def metaEnc (bits : Nat) (m : Meta) : List Byte := enc .str keyword ++ encs metaTys (metaVals bits m)

/-- Metadata written by a handle: type and precision are small numbers. -/
def MetaValid (bits : Nat) (m : Meta) : Prop :=
  (-(2 : Int) ^ 63 ≤ m.typ ∧ m.typ < (2 : Int) ^ 63) ∧ (m.prec = 4 ∨ m.prec = 8) ∧ metaSize m ≤ imax bits

theorem metaSize_eq (bits : Nat) (m : Meta) : metaSize m = (metaEnc bits m).length := by
  simp only [metaSize, metaEnc, metaTys, encs, metaVals, List.length_append, List.length_nil, ← getSize_eq, getSize, Sc.size]
  omega

theorem meta_valids {bits : Nat} (hb : Width bits) {m : Meta} (h : MetaValid bits m) : Valids bits metaTys (metaVals bits m) := by
  obtain ⟨h1, h2, h3⟩ := h
  simp only [metaTys, metaVals, Valids, Valid, minVersion]
  have h4 : m.aocl.length ≤ imax bits := by simp only [metaSize] at h3; omega
  refine ⟨?_, ?_, h1, ?_, ⟨h4, fun _ _ => trivial⟩, trivial⟩
  · rcases hb with rfl | rfl <;> decide
  · rcases hb with rfl | rfl <;> decide
  · rcases hb with rfl | rfl <;> rcases h2 with h | h <;> rw [h] <;> decide

theorem keyword_valid {bits : Nat} (hb : Width bits) : Valid bits .str keyword := by
  refine ⟨?_, fun _ _ => trivial⟩
  rcases hb with rfl | rfl <;> decide

theorem metaSer_ok {bits size : Nat} (hb : Width bits) {m : Meta} (hm : MetaValid bits m) (buf : List Byte)
    (h : buf.length + (metaEnc bits m).length ≤ size) : metaSer bits size m buf = (.ok, buf ++ metaEnc bits m) := by
  simp only [metaEnc, List.length_append] at h
  simp only [metaSer, metaEnc]
  rw [ser_ok .str keyword buf (by omega)]
  dsimp only
  rw [(fields_lawful hb metaTys).ser_ok size _ _ (meta_valids hb hm) (by simp only [List.length_append]; omega), List.append_assoc]

theorem metaSer_fail {bits size : Nat} (hb : Width bits) {m : Meta} (hm : MetaValid bits m) (buf : List Byte)
    (h0 : buf.length ≤ size) (h : ¬ buf.length + (metaEnc bits m).length ≤ size) : (metaSer bits size m buf).1 ≠ .ok := by
  simp only [metaEnc, List.length_append] at h
  simp only [metaSer]
  by_cases h1 : buf.length + (enc .str keyword).length ≤ size
  · rw [ser_ok .str keyword buf h1]
    exact (fields_ss hb metaTys).ser_fail size _ _ (meta_valids hb hm) (by simpa using h1) (by simp only [List.length_append]; omega)
  · have := (ser_fail .str keyword buf h0 h1).1
    cases hr : ser size .str keyword buf with
    | mk s b => rw [hr] at this; simp only at this; subst this; simp

theorem metaSer_len {bits size : Nat} (hb : Width bits) (m : Meta) (buf : List Byte) (h0 : buf.length ≤ size) :
    (metaSer bits size m buf).2.length ≤ size := by
  simp only [metaSer]
  have h1 := (field_lawful hb .str).ser_len size keyword buf h0
  simp only [field] at h1
  cases hr : ser size .str keyword buf with
  | mk s b =>
    rw [hr] at h1
    cases s <;> first | exact h1 | exact (fields_lawful hb metaTys).ser_len size _ b h1

theorem regSer_len {size : Nat} (r : Reg) (buf : List Byte) (h0 : buf.length ≤ size) : (regSer size r buf).2.length ≤ size := by
  by_cases h : buf.length + (regEnc r).length ≤ size
  · rw [regSer_ok r buf h]; simpa using h
  · exact (regSer_fail r buf h0 h).2

/-- The width of `da_int` of the writer is accepted by the reader. -/
def WidthOk (bits bits' : Nat) : Prop := bits = bits' ∨ bits = 32

theorem valid_mono {bits bits' : Nat} (h : bits ≤ bits') : ∀ (t : Ty) (v : t.denote), Valid bits t v → Valid bits' t v := by
  have hz : ∀ a b : Nat, a ≤ b → (2 : Int) ^ a ≤ (2 : Int) ^ b := fun a b hab => by
    exact_mod_cast Nat.pow_le_pow_right (by omega) hab
  have h2 := hz (bits - 1) (bits' - 1) (by omega)
  intro t
  induction t with
  | sc s =>
    intro v hv
    cases s <;> try exact hv
    obtain ⟨ha, hc⟩ := hv
    exact ⟨Int.le_trans (Int.neg_le_neg h2) ha, Int.lt_of_lt_of_le hc h2⟩
  | vec t ih =>
    rintro l ⟨h1, h3⟩
    refine ⟨Nat.le_trans h1 ?_, fun x hx => ih x (h3 x hx)⟩
    have := Nat.pow_le_pow_right (n := 2) (by omega) (show bits - 1 ≤ bits' - 1 by omega)
    simp only [imax]; omega

theorem valids_mono {bits bits' : Nat} (h : bits ≤ bits') : ∀ (ts : List Ty) (v : Vals ts), Valids bits ts v → Valids bits' ts v := by
  intro ts
  induction ts with
  | nil => intro v _; trivial
  | cons t ts ih => rintro ⟨a, b⟩ ⟨h1, h2⟩; exact ⟨valid_mono h t a h1, ih b h2⟩

theorem width_le {bits bits' : Nat} (hb : Width bits) (hb' : Width bits') (h : WidthOk bits bits') : bits ≤ bits' := by
  rcases hb with rfl | rfl <;> rcases hb' with rfl | rfl <;> rcases h with h | h <;> omega

theorem metaDes_ok {bits bits' : Nat} (hb : Width bits) (hb' : Width bits') (hw : WidthOk bits bits') {m : Meta}
    (hm : MetaValid bits m) (pre post : List Byte) :
    metaDes bits' (pre ++ metaEnc bits m ++ post) pre.length =
      (.ok, (minVersion, m), pre.length + (metaEnc bits m).length) := by
  have h1 := des_ok hb' .str keyword [] pre (encs metaTys (metaVals bits m) ++ post) (keyword_valid hb')
  have h2 := (fields_lawful hb' metaTys).des_ok (metaVals bits m) (vdef _) (pre ++ enc .str keyword) post
    (valids_mono (width_le hb hb' hw) _ _ (meta_valids hb hm)) trivial
  simp only [List.append_assoc, List.length_append] at h1 h2
  simp only [metaDes, metaEnc, List.append_assoc, List.length_append]
  rw [h1]
  dsimp only
  rw [if_neg (by simp), if_neg (by simp), h2]
  simp only [metaVals]
  have e1 : ¬ @LT.lt Int _ minVersion minVersion := Int.lt_irrefl _
  rw [if_neg e1]
  have e2 : ¬ (((bits' / 8 : Nat) : Int) ≠ ((bits / 8 : Nat) : Int) ∧ ((bits / 8 : Nat) : Int) ≠ (4 : Int)) := by
    rcases hw with rfl | rfl
    · simp
    · simp
  rw [if_neg e2]
  have e3 : ¬ (m.prec ≠ (4 : Int) ∧ m.prec ≠ (8 : Int)) := by
    rcases hm.2.1 with h | h <;> simp [h]
  rw [if_neg e3]
  simp only [Nat.add_assoc]

theorem metaDes_trunc {bits bits' : Nat} (hb : Width bits) (hb' : Width bits') (hw : WidthOk bits bits') {m : Meta}
    (hm : MetaValid bits m) (pre : List Byte) (k : Nat) (hk : k < (metaEnc bits m).length) :
    (metaDes bits' (pre ++ (metaEnc bits m).take k) pre.length).1 = .invalidFile := by
  simp only [metaEnc, List.length_append] at hk
  rw [metaEnc, List.take_append]
  by_cases hk1 : k < (enc .str keyword).length
  · rw [show k - (enc .str keyword).length = 0 by omega, List.take_zero, List.append_nil]
    have h1 := des_trunc hb' .str keyword [] pre k (keyword_valid hb') hk1
    rw [metaDes]
    cases hr : des bits' (pre ++ (enc .str keyword).take k) .str [] pre.length with
    | mk s q =>
      obtain ⟨kw, o⟩ := q
      rw [hr] at h1
      simp only at h1
      subst h1
      dsimp only
      split
      · rfl
      · rw [if_pos (by simp)]
  · rw [List.take_of_length_le (Nat.le_of_not_lt hk1)]
    have h1 := des_ok hb' .str keyword [] pre ((encs metaTys (metaVals bits m)).take (k - (enc .str keyword).length)) (keyword_valid hb')
    have h2 := (fields_strict hb' metaTys).des_trunc (metaVals bits m) (vdef _) (pre ++ enc .str keyword)
      (k - (enc .str keyword).length) (valids_mono (width_le hb hb' hw) _ _ (meta_valids hb hm)) trivial (by omega)
    simp only [List.append_assoc, List.length_append] at h1 h2
    rw [metaDes, h1]
    dsimp only
    rw [if_neg (by simp), if_neg (by simp)]
    cases hr : (fields bits' metaTys).des (pre ++ (enc .str keyword ++ (encs metaTys (metaVals bits m)).take (k - (enc .str keyword).length)))
        (vdef metaTys) (pre.length + (enc .str keyword).length) with
    | mk s q =>
      rw [hr] at h2
      simp only at h2
      subst h2
      rfl

theorem metaDes_safe {bits : Nat} (bytes : List Byte) (hlen : bytes.length ≤ imax bits) (off : Nat) (h : off ≤ bytes.length) :
    ((metaDes bits bytes off).1 = .ok ∨ (metaDes bits bytes off).1 = .invalidFile ∨ (metaDes bits bytes off).1 = .version) ∧
      off ≤ (metaDes bits bytes off).2.2 ∧ (metaDes bits bytes off).2.2 ≤ bytes.length := by
  have h1 := des_safe bytes hlen .str [] off h
  simp only [metaDes]
  cases hr : des bits bytes .str [] off with
  | mk s q =>
    obtain ⟨kw, o⟩ := q
    rw [hr] at h1
    obtain ⟨p1, q1, r1⟩ := h1
    simp only at p1 q1 r1
    dsimp only
    split
    · exact ⟨Or.inr (Or.inl rfl), q1, r1⟩
    · split
      · rcases p1 with rfl | rfl
        · exact ⟨Or.inl rfl, q1, r1⟩
        · exact ⟨Or.inr (Or.inl rfl), q1, r1⟩
      · have h2 := fields_safe bits metaTys bytes (vdef _) o hlen r1
        cases hr2 : (fields bits metaTys).des bytes (vdef metaTys) o with
        | mk s2 q2 =>
          obtain ⟨⟨isz, ver, typ, prec, aocl, u⟩, o'⟩ := q2
          rw [hr2] at h2
          obtain ⟨p2, q2, r2⟩ := h2
          simp only at p2 q2 r2
          rcases p2 with rfl | rfl
          · refine ⟨?_, Nat.le_trans q1 q2, r2⟩
            dsimp only
            split
            · exact Or.inr (Or.inr rfl)
            · split
              · exact Or.inr (Or.inl rfl)
              · split
                · exact Or.inr (Or.inl rfl)
                · exact Or.inl rfl
          · exact ⟨Or.inr (Or.inl rfl), Nat.le_trans q1 q2, r2⟩

end Verif.Persist
