/- Property C36: stratified shuffling keeps class proportions and never leaks. -/
import Verif.Stratified.Proof
namespace Verif.Stratified

/-! #### Specification -/

/-- The documented requirements on the arguments. -/
def Legal (classes : List Int) (trainSize testSize : Int) : Prop :=
  2 ≤ classes.dedup.length ∧ trainSize + testSize ≤ classes.length ∧
  (classes.dedup.length : Int) ≤ trainSize ∧ (classes.dedup.length : Int) ≤ testSize ∧
  ∀ v ∈ classes, 2 ≤ classes.count v

/-- Number of the listed rows that belong to class `v`. -/
def rowsOfClass (classes : List Int) (rows : List Nat) (v : Int) : Nat :=
  rows.countP fun x => classes[x]? == some v

/-! #### Lemmas -/

theorem sum_counts {classes : List Int} {es : Entries} (h : IsMap classes es) :
    ∑ i ∈ Finset.range es.length, ((es[i]?).map fun e => e.2.length).getD 0 = classes.length := by
  have h1 := h.perm.length_eq
  rw [List.length_range] at h1
  rw [← h1, ← sum_map_range, List.length_flatMap]
  congr 1
  apply List.ext_getElem
  · simp
  · intro i h1 h2
    simp only [List.length_map, List.length_range] at h1
    simp [h1]

theorem validate_iff {classes : List Int} {es : Entries} (h : IsMap classes es) (tr te : Int) :
    validate classes.length tr te es.length (fun i => ((es[i]?).map fun e => e.2.length).getD 0) = .success ↔
      Legal classes tr te := by
  have hany : ((List.range es.length).any (fun i => (((es[i]?).map fun e => e.2.length).getD 0) < 2)) = true ↔
      ¬ ∀ v ∈ classes, 2 ≤ classes.count v := by
    rw [List.any_eq_true]
    constructor
    · rintro ⟨i, hi, hlt⟩ hall
      have hi' : i < es.length := List.mem_range.mp hi
      have he : es[i]? = some (es[i].1, es[i].2) := List.getElem?_eq_getElem hi'
      rw [he] at hlt
      simp only [Option.map_some, Option.getD_some, decide_eq_true_eq] at hlt
      rw [entry_length h he] at hlt
      have := hall es[i].1 ((mem_keys h _).mp (List.mem_map.mpr ⟨es[i], List.getElem_mem _, rfl⟩))
      omega
    · intro hn
      push Not at hn
      obtain ⟨v, hv, hlt⟩ := hn
      obtain ⟨e, he, rfl⟩ := List.mem_map.mp ((mem_keys h v).mpr hv)
      obtain ⟨i, hi, hie⟩ := List.mem_iff_getElem.mp he
      refine ⟨i, List.mem_range.mpr hi, ?_⟩
      have he' : es[i]? = some (e.1, e.2) := by rw [List.getElem?_eq_getElem hi, hie]
      rw [he']
      simp only [Option.map_some, Option.getD_some, decide_eq_true_eq]
      rw [entry_length h he']; exact hlt
  unfold validate Legal
  rw [← map_length h]
  by_cases a : es.length < 2
  · rw [if_pos a]; simp; omega
  · rw [if_neg a]
    by_cases b : tr + te > classes.length
    · rw [if_pos b]; simp; omega
    · rw [if_neg b]
      by_cases c : tr < es.length ∨ te < es.length
      · rw [if_pos c]; simp; omega
      · rw [if_neg c]
        by_cases d : ((List.range es.length).any (fun i => (((es[i]?).map fun e => e.2.length).getD 0) < 2)) = true
        · rw [if_pos d]
          simp only [reduceCtorEq, false_iff]
          intro hl
          exact hany.mp d hl.2.2.2.2
        · rw [if_neg d]
          simp only [true_iff]
          refine ⟨by omega, by omega, by omega, by omega, ?_⟩
          by_contra hcon
          exact d (hany.mpr hcon)

/-- A rounded share of at most the whole is at most the whole. -/
theorem share_le {f c n m : Nat} (hm : 0 < m) (hn : n ≤ m) (h : |(f : ℚ) - (c : ℚ) * n / m| < 1) : f ≤ c := by
  have hmq : (0 : ℚ) < m := by exact_mod_cast hm
  have hnq : (n : ℚ) ≤ m := by exact_mod_cast hn
  have hc : (0 : ℚ) ≤ c := Nat.cast_nonneg _
  have h1 : (c : ℚ) * n / m ≤ c := by
    rw [div_le_iff₀ hmq]
    exact mul_le_mul_of_nonneg_left hnq hc
  have h2 := (abs_lt.mp h).2
  have h3 : (f : ℚ) < c + 1 := by linarith
  have : f < c + 1 := by exact_mod_cast h3
  omega

/-! #### C36 -/

/-- C36.  For legal arguments and every outcome of the random generator the call succeeds; the
first `tr` entries are the train rows and the next `te` the test rows; all are distinct row
numbers; the rest of the buffer is untouched; the number of train rows of each class is within
one of its exact share of the data, and the number of test rows of each class within one of
its exact share of the rows left after choosing the train rows. -/
theorem C36_stratified_shares (rnd1 rnd2 : Nat → Nat) (shufC : Nat → List Nat → List Nat)
    (shufTr shufTe : List Nat → List Nat) (hC : ∀ c l, (shufC c l).Perm l) (hTr : ∀ l, (shufTr l).Perm l)
    (hTe : ∀ l, (shufTe l).Perm l) (tr te : Nat) (classes : List Int) (out : List Nat)
    (hleg : Legal classes tr te) (hout : tr + te ≤ out.length) :
    ∃ train test, stratifiedShuffle rnd1 rnd2 shufC shufTr shufTe tr te classes out
        = some (.success, train ++ test ++ out.drop (tr + te)) ∧
      train.length = tr ∧ test.length = te ∧
      (train ++ test).Nodup ∧ (∀ x ∈ train ++ test, x < classes.length) ∧
      ∀ v ∈ classes,
        |(rowsOfClass classes train v : ℚ) - (classes.count v : ℚ) * tr / classes.length| < 1 ∧
        |(rowsOfClass classes test v : ℚ)
          - ((classes.count v - rowsOfClass classes train v : Nat) : ℚ) * te / (classes.length - tr : Nat)| < 1 ∧
        rowsOfClass classes train v + rowsOfClass classes test v ≤ classes.count v := by
  have hmap := classMap_isMap classes
  have hval := (validate_iff hmap tr te).mpr hleg
  obtain ⟨l1, l2, l3, l4, l5⟩ := hleg
  rw [← map_length hmap] at l1 l3 l4
  generalize hes : classMap classes = es at *
  set counts : Nat → Nat := fun i => ((es[i]?).map fun e => e.2.length).getD 0 with hcounts
  have hsum := sum_counts hmap
  obtain ⟨ftr, f1, f2, f3⟩ := classFrequency_spec rnd1 tr classes.length es.length counts (by omega) (by omega) hsum
  have hle1 : ∀ i < es.length, ftr i ≤ counts i := fun i hi => share_le (by omega) (by omega) (f3 i hi)
  have hsum2 : ∑ i ∈ Finset.range es.length, (counts i - ftr i) = classes.length - tr := by
    have : ∑ i ∈ Finset.range es.length, (counts i - ftr i) + ∑ i ∈ Finset.range es.length, ftr i =
        ∑ i ∈ Finset.range es.length, counts i := by
      rw [← Finset.sum_add_distrib]
      apply Finset.sum_congr rfl
      intro i hi
      have := hle1 i (Finset.mem_range.mp hi)
      omega
    have hsum' : ∑ i ∈ Finset.range es.length, counts i = classes.length := hsum
    omega
  obtain ⟨fte, g1, g2, g3⟩ := classFrequency_spec rnd2 te (classes.length - tr) es.length (fun i => counts i - ftr i)
    (by omega) (by omega) hsum2
  have hle2 : ∀ i < es.length, fte i ≤ counts i - ftr i := fun i hi => share_le (by omega) (by omega) (g3 i hi)
  -- the class loop
  have hfill := fillClasses_ok shufC hC ftr fte tr te es 0 [] [] (out.drop (tr + te)) (out.take tr)
    ((out.drop tr).take te) (by
      intro i e he
      have hi : i < es.length := by
        by_contra hge
        rw [List.getElem?_eq_none (by omega)] at he; cases he
      have h1 := hle1 i hi; have h2 := hle2 i hi
      have hc : counts i = e.2.length := by simp only [hcounts]; rw [he]; rfl
      simp only [Nat.zero_add]
      omega) (by simp; omega) (by simp; omega)
      (by simp only [Nat.zero_add]; rw [sum_map_range, f2]; simp; omega)
      (by simp only [Nat.zero_add]; rw [sum_map_range, g2]; simp; omega)
  simp only [List.nil_append, List.append_nil, List.length_nil, Nat.add_zero] at hfill
  have hbuf : out.take tr ++ (out.drop tr).take te ++ out.drop (tr + te) = out := by
    rw [← List.drop_drop, List.append_assoc, List.take_append_drop, List.take_append_drop]
  rw [hbuf] at hfill
  set T := (es.zipIdx 0).flatMap fun p => (shufC p.2 p.1.2).take (ftr p.2) with hT
  set E := (es.zipIdx 0).flatMap fun p => (shufC p.2 p.1.2).reverse.take (fte p.2) with hE
  -- sub-permutation of all rows
  have hsub : (T ++ E).Subperm (List.range classes.length) := by
    have h1 : (T ++ E).Subperm ((es.zipIdx 0).flatMap fun p => p.1.2) := by
      refine flatMap_subperm (es.zipIdx 0) _ _ _ ?_
      intro p hp
      obtain ⟨hp1, hp2, hp3⟩ := List.mem_zipIdx hp
      simp only [Nat.sub_zero, Nat.zero_add] at hp2 hp3
      have a := hle1 p.2 hp2; have b := hle2 p.2 hp2
      have hc : counts p.2 = p.1.2.length := by
        simp only [hcounts]; rw [List.getElem?_eq_getElem hp2, hp3]; rfl
      have hlen := (hC p.2 p.1.2).length_eq
      exact (take_reverse_subperm _ _ _ (by omega)).trans (hC p.2 p.1.2).subperm
    rw [flatMap_zipIdx es 0 (fun e => e.2)] at h1
    exact h1.trans hmap.perm.subperm
  have hseg : ∀ (f : Nat → Nat) (r : Nat → List Nat → List Nat), (∀ c l, (r c l).Perm l) →
      (∀ i < es.length, f i ≤ counts i) →
      (((es.zipIdx 0).flatMap fun p => (r p.2 p.1.2).take (f p.2)).length = ∑ i ∈ Finset.range es.length, f i) ∧
      ∀ i v l, es[i]? = some (v, l) →
        rowsOfClass classes ((es.zipIdx 0).flatMap fun p => (r p.2 p.1.2).take (f p.2)) v = f i := by
    intro f r hr hf
    constructor
    · rw [List.length_flatMap, ← sum_map_range]
      congr 1
      apply List.ext_getElem
      · simp
      · intro i h1 h2
        simp only [List.length_map, List.length_range] at h2
        have := hf i h2
        have hc : counts i = es[i].2.length := by
          simp only [hcounts]; rw [List.getElem?_eq_getElem h2]; rfl
        have hlen := (hr i es[i].2).length_eq
        simp only [List.getElem_map, List.getElem_zipIdx, List.getElem_range, Nat.zero_add, List.length_take]
        omega
    · intro i v l he
      have hi : i < es.length := by
        by_contra hge
        rw [List.getElem?_eq_none (by omega)] at he; cases he
      have := countP_flatMap_class classes v (fun c e => (r c e.2).take (f c)) es 0 (keys_nodup hmap)
        (fun e he c x hx => hmap.cls e.1 e.2 he x ((hr c e.2).mem_iff.mp (List.mem_of_mem_take hx))) i l he
      unfold rowsOfClass
      rw [this]
      have h2 := hf i hi
      have hc : counts i = l.length := by simp only [hcounts]; rw [he]; rfl
      have hlen := (hr (0 + i) l).length_eq
      simp only [Nat.zero_add] at hlen ⊢
      simp only [List.length_take]; omega
  obtain ⟨t1, t2⟩ := hseg ftr shufC hC hle1
  obtain ⟨e1, e2⟩ := hseg fte (fun c l => (shufC c l).reverse)
    (fun c l => (List.reverse_perm _).trans (hC c l)) (fun i hi => by have := hle2 i hi; omega)
  rw [f2, ← hT] at t1
  rw [g2, ← hE] at e1
  rw [← hT] at t2
  rw [← hE] at e2
  have hTt : (T ++ E ++ out.drop (tr + te)).take tr = T := by
    rw [List.append_assoc, ← t1, List.take_left]
  have hEt : ((T ++ E ++ out.drop (tr + te)).drop tr).take te = E := by
    rw [List.append_assoc, ← t1, List.drop_left, ← e1, List.take_left]
  have hdt : (T ++ E ++ out.drop (tr + te)).drop (tr + te) = out.drop (tr + te) := by
    have : tr + te = (T ++ E).length := by simp; omega
    conv_lhs => rw [this]
    rw [List.drop_left' rfl, ← this]
  refine ⟨shufTr T, shufTe E, ?_, by rw [(hTr T).length_eq, t1], by rw [(hTe E).length_eq, e1], ?_, ?_, ?_⟩
  · unfold stratifiedShuffle
    simp only [hes]
    rw [hval]
    have f1' := f1
    have g1' := g1
    simp only [hcounts] at f1' g1'
    simp only [Int.toNat_natCast, f1', g1', hfill, Option.bind_eq_bind, Option.bind_some, Option.pure_def, hTt, hEt, hdt]
  · have hp : (shufTr T ++ shufTe E).Perm (T ++ E) := (hTr T).append (hTe E)
    obtain ⟨l, hl1, hl2⟩ := hsub
    exact hp.nodup_iff.mpr (hl1.nodup_iff.mp (hl2.nodup List.nodup_range))
  · intro x hx
    have hp : (shufTr T ++ shufTe E).Perm (T ++ E) := (hTr T).append (hTe E)
    exact List.mem_range.mp (hsub.subset (hp.mem_iff.mp hx))
  · intro v hv
    obtain ⟨e, he, rfl⟩ := List.mem_map.mp ((mem_keys hmap v).mpr hv)
    obtain ⟨i, hi, hie⟩ := List.mem_iff_getElem.mp he
    have he' : es[i]? = some (e.1, e.2) := by rw [List.getElem?_eq_getElem hi, hie]
    have hcl := entry_length hmap he'
    have hc : counts i = classes.count e.1 := by rw [← hcl]; simp only [hcounts]; rw [he']; rfl
    have a1 : rowsOfClass classes (shufTr T) e.1 = ftr i := by
      unfold rowsOfClass; rw [(hTr T).countP_eq]; exact t2 i e.1 e.2 he'
    have a2 : rowsOfClass classes (shufTe E) e.1 = fte i := by
      unfold rowsOfClass; rw [(hTe E).countP_eq]; exact e2 i e.1 e.2 he'
    rw [a1, a2, ← hc]
    refine ⟨f3 i hi, g3 i hi, ?_⟩
    have := hle1 i hi; have := hle2 i hi
    omega

/-- C36.  When train and test together use every row, the number of test rows of each class is
also within one of its share of the whole data. -/
theorem C36_full_use_test_share (classes : List Int) (train test : List Nat) (tr te : Nat) (v : Int)
    (hm : tr + te = classes.length) (hte : 0 < te)
    (h1 : |(rowsOfClass classes train v : ℚ) - (classes.count v : ℚ) * tr / classes.length| < 1)
    (h2 : |(rowsOfClass classes test v : ℚ)
          - ((classes.count v - rowsOfClass classes train v : Nat) : ℚ) * te / (classes.length - tr : Nat)| < 1)
    (h3 : rowsOfClass classes train v + rowsOfClass classes test v ≤ classes.count v) :
    |(rowsOfClass classes test v : ℚ) - (classes.count v : ℚ) * te / classes.length| < 1 := by
  have e1 : classes.length - tr = te := by omega
  have hteq : (0 : ℚ) < te := by exact_mod_cast hte
  have hmq : (classes.length : ℚ) = tr + te := by exact_mod_cast hm.symm
  have htr : (0 : ℚ) ≤ tr := Nat.cast_nonneg _
  rw [e1] at h2
  rw [mul_div_assoc, div_self (ne_of_gt hteq), mul_one] at h2
  rw [← Int.cast_natCast, ← Int.cast_natCast (R := ℚ) (classes.count v - _)] at h2
  have h2' : |((rowsOfClass classes test v : Int) - ((classes.count v - rowsOfClass classes train v : Nat) : Int))| < 1 := by
    exact_mod_cast h2
  have h4 : rowsOfClass classes test v = classes.count v - rowsOfClass classes train v := by
    have := Int.abs_lt_one_iff.mp h2'; omega
  rw [h4, Nat.cast_sub (by omega)]
  have hpos : (0 : ℚ) < classes.length := by rw [hmq]; linarith
  have h5 : (classes.count v : ℚ) * te / classes.length = classes.count v - (classes.count v : ℚ) * tr / classes.length := by
    field_simp
    rw [hmq]; ring
  rw [h5]
  rw [abs_lt] at h1 ⊢
  constructor <;> linarith

/-- C36.  Arguments outside the documented requirements are refused and the buffer is
untouched. -/
theorem C36_stratified_refuses (rnd1 rnd2 : Nat → Nat) (shufC : Nat → List Nat → List Nat)
    (shufTr shufTe : List Nat → List Nat) (tr te : Int) (classes : List Int) (out : List Nat)
    (hleg : ¬ Legal classes tr te) :
    stratifiedShuffle rnd1 rnd2 shufC shufTr shufTe tr te classes out = some (.invalidInput, out) := by
  have hmap := classMap_isMap classes
  have hval : validate classes.length tr te (classMap classes).length
      (fun i => (((classMap classes)[i]?).map fun e => e.2.length).getD 0) = .invalidInput := by
    have h := mt (validate_iff hmap tr te).mp hleg
    have two : ∀ m a b n c, validate m a b n c = .success ∨ validate m a b n c = .invalidInput := by
      intro m a b n c
      unfold validate
      repeat' split
      all_goals simp
    exact (two _ _ _ _ _).resolve_left h
  unfold stratifiedShuffle
  simp only [hval]

/-- C36.  Without classes the result is a permutation of all rows. -/
theorem C36_plain_shuffle (rnd1 rnd2 : Nat → Nat) (shufC : Nat → List Nat → List Nat)
    (shufTr shufTe shufAll : List Nat → List Nat) (hA : ∀ l, (shufAll l).Perm l) (m : Nat) (seed tr te : Int)
    (out : List Nat) (hm : 2 ≤ m) (hs : -1 ≤ seed) (hout : m ≤ out.length) :
    ∃ p, p.Perm (List.range m) ∧
      getShuffledIndices rnd1 rnd2 shufC shufTr shufTe shufAll m seed tr te none (some out)
        = some (.success, some (p ++ out.drop m)) := by
  refine ⟨shufAll (List.range m), hA _, ?_⟩
  unfold getShuffledIndices
  simp only
  rw [if_neg (by omega), if_neg (by omega)]
  simp [hout]

/-- C36.  Null output, fewer than two rows and seeds below -1 are refused. -/
theorem C36_shuffle_refuses (rnd1 rnd2 : Nat → Nat) (shufC : Nat → List Nat → List Nat)
    (shufTr shufTe shufAll : List Nat → List Nat) (m seed tr te : Int) (classes : Option (List Int))
    (out : Option (List Nat)) (h : out = none ∨ m < 2 ∨ seed < -1) :
    ∃ s, getShuffledIndices rnd1 rnd2 shufC shufTr shufTe shufAll m seed tr te classes out = some (s, out) ∧
      s ≠ .success := by
  unfold getShuffledIndices
  cases out with
  | none => exact ⟨_, rfl, by decide⟩
  | some out =>
    simp only [reduceCtorEq, false_or] at h ⊢
    by_cases h1 : m ≤ 1
    · rw [if_pos h1]; exact ⟨_, rfl, by decide⟩
    · rw [if_neg h1, if_pos (by omega)]; exact ⟨_, rfl, by decide⟩

-- seven rows in two classes, three train and three test rows
example : Legal [5, 5, 9, 5, 9, 5, 9] 3 3 := by
  refine ⟨by decide, by decide, by decide, by decide, by decide⟩
example : stratifiedShuffle (fun _ => 0) (fun _ => 1) (fun _ l => l.reverse) id List.reverse 3 3
    [5, 5, 9, 5, 9, 5, 9] (List.replicate 7 99) = some (.success, [5, 3, 6, 4, 2, 0, 99]) := by decide +kernel
example : ¬ Legal [5, 5, 9, 5] 1 2 := by
  intro h; exact absurd h.2.2.1 (by decide)

end Verif.Stratified
