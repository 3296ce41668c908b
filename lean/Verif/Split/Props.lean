/- Property C35: the train/test split copies the right rows and nothing else. -/
import Verif.Split.Model
import Verif.Copies.Props
namespace Verif.Split
open Verif.Copies (Order cell Fits cell_inj)

variable {α : Type}

/-! #### Specification -/

/-- Row `k` of the split order is this row of the data. -/
def rowOf (shuffle : Option (List Nat)) (k : Nat) : Nat :=
  match shuffle with
  | none => k
  | some l => l.getD k 0

/-- The shuffle array, if given, has at least `k` entries and they are row numbers. -/
def ValidShuffle (shuffle : Option (List Nat)) (m k : Nat) : Prop :=
  ∀ l, shuffle = some l → k ≤ l.length ∧ ∀ i < k, l.getD i 0 < m

/-- `out'` is `out` with row `i` set to row `row i` of `X` for `i < size`; nothing else
changes. -/
def HoldsRows (o : Order) (n ldx size ldo : Nat) (row : Nat → Nat) (X out out' : List α) : Prop :=
  out'.length = out.length ∧
  (∀ i j, i < size → j < n → out'[cell o ldo i j]? = X[cell o ldx (row i) j]?) ∧
  (∀ k, (∀ i j, i < size → j < n → k ≠ cell o ldo i j) → out'[k]? = out[k]?)

/-! #### Lemmas -/

theorem exec_spec (X : List α) : ∀ (ws : List Write) (tr te : List α),
    (∀ w ∈ ws, (∃ k, w.src = some k ∧ k < X.length) ∧ (w.toTrain = true → w.dst < tr.length) ∧
      (w.toTrain = false → w.dst < te.length)) →
    (∀ v ∈ ws, ∀ w ∈ ws, v.toTrain = w.toTrain → v.dst = w.dst → v.src = w.src) →
    ∃ tr' te', exec X ws (tr, te) = some (tr', te') ∧ tr'.length = tr.length ∧ te'.length = te.length ∧
      (∀ w ∈ ws, ∀ k, w.src = some k → (if w.toTrain then tr' else te')[w.dst]? = X[k]?) ∧
      (∀ k, (∀ w ∈ ws, w.toTrain = true → k ≠ w.dst) → tr'[k]? = tr[k]?) ∧
      (∀ k, (∀ w ∈ ws, w.toTrain = false → k ≠ w.dst) → te'[k]? = te[k]?) := by
  intro ws
  induction ws with
  | nil => intro tr te _ _; exact ⟨tr, te, rfl, rfl, rfl, by simp, by simp, by simp⟩
  | cons w ws ih =>
    intro tr te hb hf
    obtain ⟨⟨k, hk, hkX⟩, htr, hte⟩ := hb w (by simp)
    have hrest : ∀ v ∈ ws, ∀ w ∈ ws, v.toTrain = w.toTrain → v.dst = w.dst → v.src = w.src :=
      fun v hv u hu => hf v (by simp [hv]) u (by simp [hu])
    cases hT : w.toTrain with
    | true =>
      obtain ⟨tr', te', h1, h2, h3, h4, h5, h6⟩ := ih (tr.set w.dst X[k]) te (by
        intro v hv; simpa using hb v (by simp [hv])) hrest
      refine ⟨tr', te', ?_, by simpa using h2, h3, ?_, ?_, ?_⟩
      · simp only [exec, hk, Option.bind_eq_bind, Option.bind_some, List.getElem?_eq_getElem hkX, hT, if_true]
        rw [if_pos (htr hT), h1]
      · intro v hv k' hk'
        rcases List.mem_cons.mp hv with rfl | hv'
        · rw [hk] at hk'; cases hk'
          simp only [hT, if_true]
          by_cases hex : ∃ q ∈ ws, q.toTrain = true ∧ q.dst = v.dst
          · obtain ⟨q, hq, hq1, hq2⟩ := hex
            have := h4 q hq k (by rw [← hk]; exact hf q (by simp [hq]) v (by simp) (by rw [hq1, hT]) hq2)
            simpa [hq1, hq2] using this
          · rw [h5 v.dst (fun q hq hq1 hq2 => hex ⟨q, hq, hq1, hq2.symm⟩)]
            simp [htr hT, List.getElem?_eq_getElem hkX]
        · exact h4 v hv' k' hk'
      · intro k' hk'
        rw [h5 k' (fun v hv => hk' v (by simp [hv])), List.getElem?_set_ne (Ne.symm (hk' w (by simp) hT))]
      · intro k' hk'
        exact h6 k' (fun v hv => hk' v (by simp [hv]))
    | false =>
      obtain ⟨tr', te', h1, h2, h3, h4, h5, h6⟩ := ih tr (te.set w.dst X[k]) (by
        intro v hv; simpa using hb v (by simp [hv])) hrest
      refine ⟨tr', te', ?_, h2, by simpa using h3, ?_, ?_, ?_⟩
      · simp only [exec, hk, Option.bind_eq_bind, Option.bind_some, List.getElem?_eq_getElem hkX, hT]
        simp only [Bool.false_eq_true, if_false]
        rw [if_pos (hte hT), h1]
      · intro v hv k' hk'
        rcases List.mem_cons.mp hv with rfl | hv'
        · rw [hk] at hk'; cases hk'
          simp only [hT, Bool.false_eq_true, if_false]
          by_cases hex : ∃ q ∈ ws, q.toTrain = false ∧ q.dst = v.dst
          · obtain ⟨q, hq, hq1, hq2⟩ := hex
            have := h4 q hq k (by rw [← hk]; exact hf q (by simp [hq]) v (by simp) (by rw [hq1, hT]) hq2)
            simpa [hq1, hq2] using this
          · rw [h6 v.dst (fun q hq hq1 hq2 => hex ⟨q, hq, hq1, hq2.symm⟩)]
            simp [hte hT, List.getElem?_eq_getElem hkX]
        · exact h4 v hv' k' hk'
      · intro k' hk'
        exact h5 k' (fun v hv => hk' v (by simp [hv]))
      · intro k' hk'
        rw [h6 k' (fun v hv => hk' v (by simp [hv])), List.getElem?_set_ne (Ne.symm (hk' w (by simp) hT))]

/-- The copies a correct split performs. -/
def IsSplit (o : Order) (n ldx trainSize testSize ldTrain ldTest : Nat) (row : Nat → Nat) (ws : List Write) : Prop :=
  ∀ w, w ∈ ws ↔
    (∃ i j, i < trainSize ∧ j < n ∧ w = ⟨true, cell o ldTrain i j, some (cell o ldx (row i) j)⟩) ∨
    (∃ i j, i < testSize ∧ j < n ∧ w = ⟨false, cell o ldTest i j, some (cell o ldx (row (trainSize + i)) j)⟩)

theorem split_ok {o : Order} {m n ldx trainSize testSize ldTrain ldTest : Nat} {row : Nat → Nat} {ws : List Write}
    (h : IsSplit o n ldx trainSize testSize ldTrain ldTest row ws) (X tr te : List α)
    (hrow : ∀ i < trainSize + testSize, row i < m)
    (hX : Fits o m n ldx X.length) (htr : Fits o trainSize n ldTrain tr.length)
    (hte : Fits o testSize n ldTest te.length) :
    ∃ tr' te', exec X ws (tr, te) = some (tr', te') ∧
      HoldsRows o n ldx trainSize ldTrain row X tr tr' ∧
      HoldsRows o n ldx testSize ldTest (fun i => row (trainSize + i)) X te te' := by
  obtain ⟨tr', te', h1, h2, h3, h4, h5, h6⟩ := exec_spec X ws tr te (by
    intro w hw
    rcases (h w).mp hw with ⟨i, j, hi, hj, rfl⟩ | ⟨i, j, hi, hj, rfl⟩
    · exact ⟨⟨_, rfl, hX.2 _ _ (hrow i (by omega)) hj⟩, fun _ => htr.2 i j hi hj, by simp⟩
    · exact ⟨⟨_, rfl, hX.2 _ _ (hrow _ (by omega)) hj⟩, by simp, fun _ => hte.2 i j hi hj⟩) (by
    intro v hv w hw hT hd
    rcases (h v).mp hv with ⟨i, j, hi, hj, rfl⟩ | ⟨i, j, hi, hj, rfl⟩ <;>
      rcases (h w).mp hw with ⟨i', j', hi', hj', rfl⟩ | ⟨i', j', hi', hj', rfl⟩
    · obtain ⟨rfl, rfl⟩ := cell_inj htr hi hj hi' hj' hd; rfl
    · simp at hT
    · simp at hT
    · obtain ⟨rfl, rfl⟩ := cell_inj hte hi hj hi' hj' hd; rfl)
  refine ⟨tr', te', h1, ⟨h2, ?_, ?_⟩, ⟨h3, ?_, ?_⟩⟩
  · intro i j hi hj
    exact h4 _ ((h _).mpr (Or.inl ⟨i, j, hi, hj, rfl⟩)) _ rfl
  · intro k hk
    refine h5 k ?_
    intro w hw hT
    rcases (h w).mp hw with ⟨i, j, hi, hj, rfl⟩ | ⟨i, j, hi, hj, rfl⟩
    · exact hk i j hi hj
    · simp at hT
  · intro i j hi hj
    exact h4 _ ((h _).mpr (Or.inr ⟨i, j, hi, hj, rfl⟩)) _ rfl
  · intro k hk
    refine h6 k ?_
    intro w hw hT
    rcases (h w).mp hw with ⟨i, j, hi, hj, rfl⟩ | ⟨i, j, hi, hj, rfl⟩
    · simp at hT
    · exact hk i j hi hj

theorem lookup_valid {shuffle : Option (List Nat)} {m k : Nat} (hs : ValidShuffle shuffle m k) {l : List Nat}
    (hl : shuffle = some l) {i : Nat} (hi : i < k) : l[i]? = some (rowOf shuffle i) := by
  subst hl
  have := (hs l rfl).1
  simp [rowOf, List.getD_eq_getElem?_getD, List.getElem?_eq_getElem (show i < l.length by omega)]

theorem pick_valid {shuffle : Option (List Nat)} {m k : Nat} (hs : ValidShuffle shuffle m k) {i : Nat}
    (hi : i < k) : pick shuffle i = some (rowOf shuffle i) := by
  cases h : shuffle with
  | none => rfl
  | some l => rw [← h]; simp only [pick, h]; rw [← h]; exact lookup_valid hs h hi

theorem column_isSplit (m n ldx trainSize testSize ldTrain ldTest : Nat) (shuffle : Option (List Nat))
    (hs : ValidShuffle shuffle m (trainSize + testSize)) :
    IsSplit .colMajor n ldx trainSize testSize ldTrain ldTest (rowOf shuffle)
      (columnWrites n ldx trainSize testSize ldTrain ldTest shuffle) := by
  have hk : ∀ toTrain size xoff soff ioff, ioff + size ≤ trainSize + testSize →
      columnKernel toTrain size xoff soff ioff shuffle =
        (List.range size).map fun i => ⟨toTrain, soff + i, some (xoff + rowOf shuffle (ioff + i))⟩ := by
    intro toTrain size xoff soff ioff hle
    unfold columnKernel
    apply List.map_congr_left
    intro i hi
    have hi' : i < size := List.mem_range.mp hi
    congr 1
    cases h : shuffle with
    | none => simp [rowOf]; omega
    | some l =>
      simp only
      rw [lookup_valid hs h (show i + ioff < _ by omega), h, Nat.add_comm i ioff]
      rfl
  intro w
  simp only [columnWrites]
  rw [List.mem_flatMap]
  constructor
  · rintro ⟨j, hj, hw⟩
    rw [hk _ _ _ _ _ (by omega), hk _ _ _ _ _ (by omega)] at hw
    rcases List.mem_append.mp hw with hw | hw
    · obtain ⟨i, hi, rfl⟩ := List.mem_map.mp hw
      refine Or.inl ⟨i, j, List.mem_range.mp hi, List.mem_range.mp hj, ?_⟩
      simp [cell, Nat.mul_comm]
    · obtain ⟨i, hi, rfl⟩ := List.mem_map.mp hw
      refine Or.inr ⟨i, j, List.mem_range.mp hi, List.mem_range.mp hj, ?_⟩
      simp [cell, Nat.mul_comm]
  · rintro (⟨i, j, hi, hj, rfl⟩ | ⟨i, j, hi, hj, rfl⟩)
    · refine ⟨j, List.mem_range.mpr hj, List.mem_append.mpr (Or.inl ?_)⟩
      rw [hk _ _ _ _ _ (by omega)]
      exact List.mem_map.mpr ⟨i, List.mem_range.mpr hi, by simp [cell, Nat.mul_comm]⟩
    · refine ⟨j, List.mem_range.mpr hj, List.mem_append.mpr (Or.inr ?_)⟩
      rw [hk _ _ _ _ _ (by omega)]
      exact List.mem_map.mpr ⟨i, List.mem_range.mpr hi, by simp [cell, Nat.mul_comm]⟩

theorem rowParallel_isSplit (m n ldx trainSize testSize ldTrain ldTest : Nat) (shuffle : Option (List Nat))
    (hs : ValidShuffle shuffle m (trainSize + testSize)) :
    IsSplit .rowMajor n ldx trainSize testSize ldTrain ldTest (rowOf shuffle)
      (rowKernel true n trainSize ldx ldTrain 0 shuffle ++
       rowKernel false n testSize ldx ldTest trainSize shuffle) := by
  have hk : ∀ toTrain size ldS ioff, ioff + size ≤ trainSize + testSize → ∀ w,
      w ∈ rowKernel toTrain n size ldx ldS ioff shuffle ↔
        ∃ i j, i < size ∧ j < n ∧ w = ⟨toTrain, cell .rowMajor ldS i j, some (cell .rowMajor ldx (rowOf shuffle (ioff + i)) j)⟩ := by
    intro toTrain size ldS ioff hle w
    have e : ∀ i j, i < size → (⟨toTrain, ldS * i + j, rowSource shuffle ldx ioff i j⟩ : Write) =
        ⟨toTrain, cell .rowMajor ldS i j, some (cell .rowMajor ldx (rowOf shuffle (ioff + i)) j)⟩ := by
      intro i j hi
      simp only [cell, Write.mk.injEq, true_and]
      refine ⟨by rw [Nat.mul_comm], ?_⟩
      cases h : shuffle with
      | none => simp [rowOf, rowSource, Nat.add_mul]
      | some l =>
        simp only [rowSource]
        rw [lookup_valid hs h (show i + ioff < _ by omega), h, Nat.add_comm i ioff]
        rfl
    simp only [rowKernel, List.mem_flatMap, List.mem_map, List.mem_range]
    constructor
    · rintro ⟨i, hi, j, hj, rfl⟩
      exact ⟨i, j, hi, hj, e i j hi⟩
    · rintro ⟨i, j, hi, hj, rfl⟩
      exact ⟨i, hi, j, hj, e i j hi⟩
  intro w
  rw [List.mem_append, hk _ _ _ _ (by omega), hk _ _ _ _ (by omega)]
  simp

theorem rowSerial_isSplit (m n ldx trainSize testSize ldTrain ldTest : Nat) (shuffle : Option (List Nat))
    (hs : ValidShuffle shuffle m (trainSize + testSize)) :
    IsSplit .rowMajor n ldx trainSize testSize ldTrain ldTest (rowOf shuffle)
      (rowSerialWrites n trainSize testSize ldx ldTrain ldTest shuffle) := by
  intro w
  simp only [rowSerialWrites, List.mem_append, List.mem_flatMap, List.mem_map, List.mem_range,
    List.mem_cons, List.not_mem_nil, or_false]
  by_cases hgt : trainSize > testSize
  · simp only [hgt, if_true, decide_true, Nat.min_eq_right (Nat.le_of_lt hgt), Nat.max_eq_left (Nat.le_of_lt hgt)]
    constructor
    · rintro (⟨i, hi, j, hj, rfl | rfl⟩ | ⟨k, hk, j, hj, rfl⟩)
      · exact Or.inl ⟨i, j, by omega, hj, by rw [pick_valid hs (by omega)]; rfl⟩
      · exact Or.inr ⟨i, j, by omega, hj, by rw [pick_valid hs (by omega), Nat.add_comm i]; rfl⟩
      · exact Or.inl ⟨testSize + k, j, by omega, hj, by rw [pick_valid hs (by omega)]; rfl⟩
    · rintro (⟨i, j, hi, hj, rfl⟩ | ⟨i, j, hi, hj, rfl⟩)
      · by_cases hlt : i < testSize
        · exact Or.inl ⟨i, hlt, j, hj, Or.inl (by rw [pick_valid hs (by omega)]; rfl)⟩
        · refine Or.inr ⟨i - testSize, by omega, j, hj, ?_⟩
          rw [show testSize + (i - testSize) = i by omega, pick_valid hs (by omega)]; rfl
      · exact Or.inl ⟨i, hi, j, hj, Or.inr (by rw [pick_valid hs (by omega), Nat.add_comm i]; rfl)⟩
  · have hle : trainSize ≤ testSize := by omega
    simp only [hgt, if_false, decide_false, Nat.min_eq_left hle, Nat.max_eq_right hle]
    constructor
    · rintro (⟨i, hi, j, hj, rfl | rfl⟩ | ⟨k, hk, j, hj, rfl⟩)
      · exact Or.inl ⟨i, j, by omega, hj, by rw [pick_valid hs (by omega)]; rfl⟩
      · exact Or.inr ⟨i, j, by omega, hj, by rw [pick_valid hs (by omega), Nat.add_comm i]; rfl⟩
      · exact Or.inr ⟨trainSize + k, j, by omega, hj, by
          rw [pick_valid hs (by omega), Nat.add_comm (trainSize + k)]; rfl⟩
    · rintro (⟨i, j, hi, hj, rfl⟩ | ⟨i, j, hi, hj, rfl⟩)
      · exact Or.inl ⟨i, hi, j, hj, Or.inl (by rw [pick_valid hs (by omega)]; rfl)⟩
      · by_cases hlt : i < trainSize
        · exact Or.inl ⟨i, hlt, j, hj, Or.inr (by rw [pick_valid hs (by omega), Nat.add_comm i]; rfl)⟩
        · refine Or.inr ⟨i - trainSize, by omega, j, hj, ?_⟩
          rw [show trainSize + (i - trainSize) = i by omega, pick_valid hs (by omega), Nat.add_comm i]; rfl

/-! #### C35 -/

/-- C35.  For legal arguments the split succeeds, and in every order of the element copies
the train buffer receives rows `0 .. trainSize-1` and the test buffer the next `testSize`
rows of the (shuffled) row order; padding is untouched, nothing is read outside `X`. -/
theorem C35_split_copies_rows (order : Order) (m n ldx trainSize testSize ldTrain ldTest threads : Nat)
    (shuffle : Option (List Nat)) (X tr te : List α)
    (hm : 2 ≤ m) (hn : 1 ≤ n) (h1 : 1 ≤ trainSize) (h2 : 1 ≤ testSize) (hsum : trainSize + testSize ≤ m)
    (hX : Fits order m n ldx X.length) (htr : Fits order trainSize n ldTrain tr.length)
    (hte : Fits order testSize n ldTest te.length)
    (hs : ValidShuffle shuffle m (trainSize + testSize)) :
    ∃ ws, splitWrites order true m n ldx trainSize testSize ldTrain ldTest shuffle threads = (.success, ws) ∧
      ∀ ws', ws'.Perm ws → ∃ tr' te', exec X ws' (tr, te) = some (tr', te') ∧
        HoldsRows order n ldx trainSize ldTrain (rowOf shuffle) X tr tr' ∧
        HoldsRows order n ldx testSize ldTest (fun i => rowOf shuffle (trainSize + i)) X te te' := by
  have hval : validate order true m n ldx trainSize testSize ldTrain ldTest = .success := by
    have a1 := hX.1; have a2 := htr.1; have a3 := hte.1
    unfold validate
    cases order <;> simp only at a1 a2 a3
    · rw [if_neg (by simp), if_neg (by omega), if_neg (by simp; omega), if_neg (by simp), if_neg (by omega),
        if_neg (by omega)]
    · rw [if_neg (by simp), if_neg (by omega), if_neg (by simp), if_neg (by simp; omega), if_neg (by omega),
        if_neg (by omega)]
  have hrow : ∀ i < trainSize + testSize, rowOf shuffle i < m := by
    intro i hi
    cases h : shuffle with
    | none => simp [rowOf]; omega
    | some l => exact (hs l h).2 i hi
  have fin : ∀ ws, IsSplit order n ldx trainSize testSize ldTrain ldTest (rowOf shuffle) ws →
      ∀ ws', ws'.Perm ws → ∃ tr' te', exec X ws' (tr, te) = some (tr', te') ∧
        HoldsRows order n ldx trainSize ldTrain (rowOf shuffle) X tr tr' ∧
        HoldsRows order n ldx testSize ldTest (fun i => rowOf shuffle (trainSize + i)) X te te' := by
    intro ws hws ws' hp
    have h' : IsSplit order n ldx trainSize testSize ldTrain ldTest (rowOf shuffle) ws' := by
      intro w; rw [hp.mem_iff]; exact hws w
    exact split_ok h' X tr te hrow hX htr hte
  unfold splitWrites
  rw [hval]
  refine ⟨_, rfl, fin _ ?_⟩
  cases order with
  | rowMajor =>
    simp only [Int.toNat_natCast]
    split
    · exact rowParallel_isSplit m n ldx trainSize testSize ldTrain ldTest shuffle hs
    · exact rowSerial_isSplit m n ldx trainSize testSize ldTrain ldTest shuffle hs
  | colMajor =>
    simp only [Int.toNat_natCast]
    exact column_isSplit m n ldx trainSize testSize ldTrain ldTest shuffle hs

/-- C35.  Illegal arguments are refused and nothing is copied. -/
theorem C35_split_refuses (order : Order) (ptrs : Bool) (m n ldx trainSize testSize ldTrain ldTest : Int)
    (shuffle : Option (List Nat)) (threads : Nat)
    (h : ptrs = false ∨ m < 2 ∨ n < 1 ∨ trainSize < 1 ∨ testSize < 1 ∨ trainSize + testSize > m ∨
      (order = .rowMajor ∧ (ldx < n ∨ ldTrain < n ∨ ldTest < n)) ∨
      (order = .colMajor ∧ (ldx < m ∨ ldTrain < trainSize ∨ ldTest < testSize))) :
    ∃ s, splitWrites order ptrs m n ldx trainSize testSize ldTrain ldTest shuffle threads = (s, []) ∧
      s ≠ .success := by
  have hv : validate order ptrs m n ldx trainSize testSize ldTrain ldTest ≠ .success := by
    unfold validate
    cases ptrs with
    | false => simp
    | true =>
      simp only [Bool.not_true, Bool.false_eq_true, if_false]
      cases order <;> simp only [reduceCtorEq, true_and, false_and, if_false, or_false, false_or, Bool.true_eq_false] at h ⊢ <;>
        (repeat' split) <;> first | (exfalso; omega) | simp
  unfold splitWrites
  generalize validate order ptrs m n ldx trainSize testSize ldTrain ldTest = s at hv
  cases s <;> first | (exact absurd rfl hv) | exact ⟨_, rfl, hv⟩

/-- C35.  With a shuffle array that is a permutation of all rows and sizes that use them all,
train and test rows together are every row exactly once (no leakage, nothing lost). -/
theorem C35_split_partitions_rows (m trainSize testSize : Nat) (l : List Nat) (hp : l.Perm (List.range m))
    (hsum : trainSize + testSize = m) :
    ((List.range trainSize).map (rowOf (some l)) ++
      (List.range testSize).map (fun i => rowOf (some l) (trainSize + i))).Perm (List.range m) := by
  have hlen : l.length = m := by simpa using hp.length_eq
  have e : (List.range trainSize).map (rowOf (some l)) ++
      (List.range testSize).map (fun i => rowOf (some l) (trainSize + i)) = l := by
    apply List.ext_getElem
    · simp [hsum, hlen]
    · intro i h1 h2
      by_cases hi : i < trainSize
      · rw [List.getElem_append_left (by simpa using hi)]
        simp [rowOf, List.getD_eq_getElem?_getD, h2]
      · rw [List.getElem_append_right (by simpa using hi)]
        simp only [List.length_map, List.length_range, List.getElem_map, List.getElem_range, rowOf]
        rw [show trainSize + (i - trainSize) = i by omega]
        simp [List.getD_eq_getElem?_getD, h2]
  rw [e]; exact hp

-- a 3 x 2 row-major matrix, shuffled, one thread and several threads
example : exec [10, 11, 20, 21, 30, 31] (splitWrites .rowMajor true 3 2 2 2 1 2 3 (some [2, 0, 1]) 1).2
    ([0, 0, 0, 0], [0, 0, 7]) = some ([30, 31, 10, 11], [20, 21, 7]) := by decide
example : exec [10, 11, 20, 21, 30, 31] (splitWrites .rowMajor true 3 2 2 2 1 2 3 (some [2, 0, 1]) 4).2
    ([0, 0, 0, 0], [0, 0, 7]) = some ([30, 31, 10, 11], [20, 21, 7]) := by decide
example : exec [10, 20, 30, 11, 21, 31] (splitWrites .colMajor true 3 2 3 1 2 1 2 none 4).2
    ([0, 0], [0, 0, 0, 0]) = some ([10, 11], [20, 30, 21, 31]) := by decide
example : ValidShuffle (some [2, 0, 1]) 3 3 := by
  intro l hl
  cases hl
  exact ⟨by decide, by decide⟩

end Verif.Split
