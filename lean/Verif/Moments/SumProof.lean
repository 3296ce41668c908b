import Mathlib.Algebra.BigOperators.Intervals
import Mathlib.Algebra.BigOperators.Ring.Finset
import Mathlib.Tactic.Ring
import Verif.Moments.Model

/-
The sums of one line and of the whole matrix: `recursive_sum`, `full_sum` and
`sum_axis_aligned` add every entry once.
-/
namespace Verif.Moments

set_option linter.unusedSectionVars false

open Finset

variable {A W : Type} [AddCommMonoid W]

theorem ok_bind {α β : Type} (a : α) (f : α → M β) : (Except.ok a >>= f) = f a := rfl

theorem forUp_zero {α : Type} (f : Nat → α → M α) (s : α) : forUp 0 f s = .ok s := rfl

theorem forUp_succ {α : Type} (n : Nat) (f : Nat → α → M α) (s : α) :
    forUp (n + 1) f s = (forUp n f s >>= fun s => f n s) := by
  simp only [forUp, List.range_succ, List.foldlM_append]
  congr 1
  funext s
  simp

/-- The value of the entry at position `k` of the buffer. -/
def val (S : Kern A W) (x : List A) (p : Option A) (k : Nat) : M W := do
  let a ← rd x k
  S.app p a

theorem addRun_ok (S : Kern A W) (x : List A) (p : Option A) (w : Nat → W) (pos left : Nat)
    (acc : W) (h : ∀ i < left, val S x p (pos + i) = .ok (w i)) :
    addRun S x p pos left acc = .ok (acc + ∑ i ∈ range left, w i) := by
  induction left with
  | zero => simp [addRun, forUp_zero]
  | succ n ih =>
    have hn := h n (Nat.lt_succ_self n)
    have ih' := ih (fun i hi => h i (Nat.lt_succ_of_lt hi))
    unfold addRun at ih' ⊢
    rw [forUp_succ, ih', ok_bind, sum_range_succ, ← add_assoc]
    unfold val at hn
    cases hr : rd x (pos + n) with
    | error e => rw [hr] at hn; exact absurd hn (by simp [bind, Except.bind])
    | ok a =>
      rw [hr, ok_bind] at hn
      rw [ok_bind, hn, ok_bind]

theorem div_run {e i inner : Nat} (h0 : 0 < inner) (h : e + i < inner * (e / inner + 1)) :
    (e + i) / inner = e / inner := by
  apply Nat.le_antisymm
  · exact Nat.le_of_lt_succ ((Nat.div_lt_iff_lt_mul h0).2 (by rw [Nat.mul_comm]; exact h))
  · exact Nat.div_le_div_right (Nat.le_add_right e i)

theorem walk_ok (S : Kern A W) (x : List A) (p : Option A) (u : Nat → W)
    {inner : Nat} (stride : Nat) (h0 : 0 < inner) :
    ∀ (fuel e chunk : Nat) (acc : W), chunk < fuel →
      (∀ i < chunk, val S x p (e + i + (e + i) / inner * stride) = .ok (u (e + i))) →
      walk S x p inner stride fuel (e + e / inner * stride) chunk
        (min chunk (inner * (e / inner + 1) - e)) acc =
      .ok (acc + ∑ i ∈ range chunk, u (e + i)) := by
  intro fuel
  induction fuel with
  | zero => intro e chunk acc hf; omega
  | succ fuel ih =>
    intro e chunk acc hf hv
    unfold walk
    by_cases hc : chunk = 0
    · subst hc; simp
    · rw [if_neg hc]
      have hlt : e < inner * (e / inner + 1) := by
        have h1 := Nat.div_add_mod e inner
        have h2 := Nat.mod_lt e h0
        rw [Nat.mul_add]; omega
      obtain ⟨left, hl⟩ : ∃ left, left = min chunk (inner * (e / inner + 1) - e) := ⟨_, rfl⟩
      rw [← hl]
      have hl1 : left ≤ chunk := by omega
      have hl2 : e + left ≤ inner * (e / inner + 1) := by omega
      have hl3 : 1 ≤ left := by omega
      have hrun := addRun_ok S x p (fun i => u (e + i)) (e + e / inner * stride) left acc (by
        intro i hi
        have h1 := hv i (by omega)
        rw [div_run h0 (by omega)] at h1
        rw [← h1]; congr 1; omega)
      rw [hrun, ok_bind]
      by_cases hend : chunk - left = 0
      · obtain ⟨f, rfl⟩ : ∃ f, fuel = f + 1 := ⟨fuel - 1, by omega⟩
        unfold walk
        rw [hend, if_pos rfl]
        have : left = chunk := by omega
        rw [this]
      · have he : e + left = inner * (e / inner + 1) := by omega
        have hd : (e + left) / inner = e / inner + 1 := by
          rw [he]; exact Nat.mul_div_cancel_left _ h0
        have hpos : e + e / inner * stride + (left + stride) =
            e + left + (e + left) / inner * stride := by
          rw [hd, Nat.add_mul]; omega
        have hmin : min inner (chunk - left) =
            min (chunk - left) (inner * ((e + left) / inner + 1) - (e + left)) := by
          rw [hd, he, ← Nat.mul_sub]
          have : e / inner + 1 + 1 - (e / inner + 1) = 1 := by omega
          rw [this, Nat.mul_one, Nat.min_comm]
        simp only
        rw [hpos, hmin, ih (e + left) (chunk - left) _ (by omega) (by
          intro i hi
          have h1 := hv (left + i) (by omega)
          rw [← Nat.add_assoc] at h1; exact h1)]
        have hs : chunk = left + (chunk - left) := by omega
        rw [add_assoc]
        conv_rhs => rw [hs, sum_range_add]
        congr 3
        apply sum_congr rfl
        intro i _
        rw [Nat.add_assoc]

theorem recSum_ok (thr : Nat) (S : Kern A W) (x : List A) (p : Option A) (u : Nat → W)
    {inner : Nat} (stride : Nat) (h0 : 0 < inner) (ht : 0 < thr) :
    ∀ (fuel chunk e : Nat), chunk < fuel →
      (∀ i < chunk, val S x p (e + i + (e + i) / inner * stride) = .ok (u (e + i))) →
      recSum thr S x p inner stride fuel chunk e = .ok (∑ i ∈ range chunk, u (e + i)) := by
  intro fuel
  induction fuel with
  | zero => intro chunk e hf; omega
  | succ fuel ih =>
    intro chunk e hf hv
    unfold recSum
    by_cases hc : chunk ≤ thr
    · rw [if_pos hc, if_neg (by omega)]
      simp only
      rw [walk_ok S x p u stride h0 (chunk + 1) e chunk 0 (by omega) hv, zero_add]
    · rw [if_neg hc, ih (chunk / 2) e (by omega) (fun i hi => hv i (by omega)), ok_bind,
        ih (chunk - chunk / 2) (e + chunk / 2) (by omega) (by
          intro i hi
          have h1 := hv (chunk / 2 + i) (by omega)
          rw [← Nat.add_assoc] at h1; exact h1), ok_bind]
      have hs : chunk = chunk / 2 + (chunk - chunk / 2) := by omega
      conv_rhs => rw [hs, sum_range_add]
      congr 2
      apply sum_congr rfl
      intro i _
      rw [Nat.add_assoc]

/-- The position of element number `e` of the matrix seen as one line. -/
theorem pos_eq {inner ldx e : Nat} (h : inner ≤ ldx) :
    e + e / inner * (ldx - inner) = e / inner * ldx + e % inner := by
  have h1 := Nat.div_add_mod e inner
  have h2 : e / inner * ldx = e / inner * (ldx - inner) + inner * (e / inner) := by
    rw [Nat.mul_comm inner, ← Nat.mul_add]; congr 1; omega
  omega

theorem wr_ok {α : Type} {x : List α} {i : Nat} (a : α) (h : i < x.length) :
    wr x i a = .ok (x.set i a) := if_pos h

theorem rd_ok {α : Type} {x : List α} {i : Nat} {a : α} (h : x[i]? = some a) :
    rd x i = .ok a := by unfold rd; rw [h]

theorem addAt_ok {s : List W} {i : Nat} {a : W} (v : W) (h : s[i]? = some a) :
    addAt s i v = .ok (s.set i (a + v)) := by
  unfold addAt
  rw [rd_ok h, ok_bind, wr_ok]
  exact (List.getElem?_eq_some_iff.1 h).1

theorem fullSum_loop (f : Nat → M W) (g : Nat → W) :
    ∀ (ord : List Nat) (out : List W) (a : W), (∀ t ∈ ord, f t = .ok (g t)) →
      out[0]? = some a →
      ord.foldlM (fun out t => do let s ← f t; addAt out 0 s) out =
        (.ok (out.set 0 (a + (ord.map g).sum)) : M (List W)) := by
  intro ord
  induction ord with
  | nil =>
    intro out a _ h
    simp only [List.foldlM_nil, List.map_nil, List.sum_nil, add_zero]
    show Except.ok out = Except.ok (out.set 0 a)
    congr 1
    apply List.ext_getElem?
    intro i
    rw [List.getElem?_set]
    by_cases hi : 0 = i
    · subst hi
      have hl := (List.getElem?_eq_some_iff.1 h).1
      rw [if_pos rfl, if_pos hl, h]
    · simp [hi]
  | cons t ord ih =>
    intro out a hf h
    rw [List.foldlM_cons]
    have h1 := hf t (by simp)
    simp only [h1, ok_bind]
    rw [addAt_ok _ h, ok_bind, ih _ (a + g t) (fun t' ht' => hf t' (by simp [ht'])) (by
      have hl := (List.getElem?_eq_some_iff.1 h).1
      simp [hl])]
    simp [List.set_set, add_assoc]

/-- The threads of `full_sum` share the elements. -/
theorem team_sum (u : Nat → W) {nt : Nat} (N : Nat) (h : 0 < nt) :
    ∑ t ∈ range nt, ∑ i ∈ range (if t = nt - 1 then N / nt + N % nt else N / nt),
      u (t * (N / nt) + i) = ∑ e ∈ range N, u e := by
  obtain ⟨k, rfl⟩ : ∃ k, nt = k + 1 := ⟨nt - 1, by omega⟩
  rw [sum_range_succ]
  have hN : N = k * (N / (k + 1)) + (N / (k + 1) + N % (k + 1)) := by
    have h1 := Nat.div_add_mod N (k + 1)
    rw [Nat.add_mul] at h1; omega
  obtain ⟨q, hq⟩ : ∃ q, q = N / (k + 1) := ⟨_, rfl⟩
  obtain ⟨r, hr⟩ : ∃ r, r = N % (k + 1) := ⟨_, rfl⟩
  rw [← hq, ← hr] at hN ⊢
  conv_rhs => rw [hN, sum_range_add]
  simp only [Nat.add_sub_cancel, if_true]
  congr 1
  clear hN hq hr
  have h2 : ∀ t ∈ range k, (∑ i ∈ range (if t = k then q + r else q), u (t * q + i)) =
      ∑ i ∈ range q, u (t * q + i) := by
    intro t ht
    rw [if_neg (by have := mem_range.1 ht; omega)]
  rw [sum_congr rfl h2]
  clear h2
  induction k with
  | zero => simp
  | succ k ih => rw [sum_range_succ, ih (by omega), Nat.add_mul, Nat.one_mul, sum_range_add]

/-- The elements of the matrix seen as one line are its entries. -/
theorem flat_sum (v : Nat → Nat → W) {inner : Nat} (h0 : 0 < inner) (outer : Nat) :
    ∑ e ∈ range (outer * inner), v (e / inner) (e % inner) =
      ∑ o ∈ range outer, ∑ i ∈ range inner, v o i := by
  induction outer with
  | zero => simp
  | succ k ih =>
    rw [Nat.add_mul, Nat.one_mul, sum_range_add, ih, sum_range_succ]
    congr 1
    apply sum_congr rfl
    intro i hi
    have hi := mem_range.1 hi
    rw [Nat.mul_comm k, Nat.mul_add_div h0, Nat.div_eq_of_lt hi, Nat.mul_add_mod,
      Nat.mod_eq_of_lt hi, Nat.add_zero]

theorem perm_sum {ord : List Nat} {n : Nat} (h : ord.Perm (List.range n)) (g : Nat → W) :
    (ord.map g).sum = ∑ t ∈ range n, g t := by
  rw [(h.map g).sum_eq]
  clear h
  induction n with
  | zero => simp
  | succ n ih => rw [List.range_succ, List.map_append, List.sum_append, ih, sum_range_succ]; simp

theorem fullSum_ok (thr : Nat) (e : Env) (S : Kern A W) {outer inner ldx : Nat} (x : List A)
    (p : Option (List A)) (q : Option A) (out : List W) (v : Nat → Nat → W)
    (h0 : 0 < inner) (ht : 0 < thr) (hld : inner ≤ ldx) (hteam : 0 < e.team)
    (hord : e.sumOrder.Perm (List.range (e.fullTeam outer inner))) (hout : 0 < out.length)
    (hq : paramAt p 0 = .ok q)
    (hv : ∀ o < outer, ∀ i < inner, val S x q (o * ldx + i) = .ok (v o i)) :
    fullSum thr e S outer inner x ldx p out =
      .ok (out.set 0 (∑ o ∈ range outer, ∑ i ∈ range inner, v o i)) := by
  have hnt : 0 < e.fullTeam outer inner := by unfold Env.fullTeam; split <;> omega
  unfold fullSum
  rw [wr_ok _ hout, ok_bind, hq, ok_bind]
  obtain ⟨nt, hn⟩ : ∃ nt, nt = e.fullTeam outer inner := ⟨_, rfl⟩
  simp only
  rw [← hn] at hnt hord ⊢
  obtain ⟨N, hN⟩ : ∃ N, N = outer * inner := ⟨_, rfl⟩
  rw [← hN]
  have hval : ∀ k < N, val S x q (k + k / inner * (ldx - inner)) =
      .ok (v (k / inner) (k % inner)) := by
    intro k hk
    rw [pos_eq hld]
    exact hv _ ((Nat.div_lt_iff_lt_mul h0).2 (by omega)) _ (Nat.mod_lt k h0)
  rw [fullSum_loop
    (fun t => recSum thr S x q inner (ldx - inner)
      ((if t = nt - 1 then N / nt + N % nt else N / nt) + 1)
      (if t = nt - 1 then N / nt + N % nt else N / nt) (t * (N / nt)))
    (fun t => ∑ i ∈ range (if t = nt - 1 then N / nt + N % nt else N / nt),
      (fun k => v (k / inner) (k % inner)) (t * (N / nt) + i))
    e.sumOrder (out.set 0 0) 0 _ (by simp [hout])]
  · rw [perm_sum hord, team_sum (fun k => v (k / inner) (k % inner)) N hnt, hN, flat_sum v h0,
      List.set_set, zero_add]
  · intro t htm
    have htn : t < nt := by
      have := (hord.mem_iff).1 htm
      exact List.mem_range.1 this
    apply recSum_ok thr S x q (fun k => v (k / inner) (k % inner)) (ldx - inner) h0 ht _ _ _
      (Nat.lt_succ_self _)
    intro i hi
    apply hval
    have h1 := Nat.div_add_mod N nt
    by_cases hlast : t = nt - 1
    · rw [if_pos hlast] at hi
      have h2 : nt * (N / nt) = (nt - 1) * (N / nt) + N / nt := by
        rw [Nat.sub_mul, Nat.one_mul]
        have : 1 * (N / nt) ≤ nt * (N / nt) := Nat.mul_le_mul_right _ hnt
        omega
      rw [hlast]; omega
    · rw [if_neg hlast] at hi
      have h2 : (t + 1) * (N / nt) ≤ (nt - 1) * (N / nt) := Nat.mul_le_mul_right _ (by omega)
      have h3 : (nt - 1) * (N / nt) ≤ nt * (N / nt) := Nat.mul_le_mul_right _ (by omega)
      rw [Nat.add_mul, Nat.one_mul] at h2
      omega

/-- Writing `g i` to cell `i` for the `i` of a list. -/
theorem lines_loop (f : Nat → M W) (g : Nat → W) (L : Nat) :
    ∀ (ord : List Nat) (out : List W), (∀ t ∈ ord, t < L ∧ f t = .ok (g t)) → L ≤ out.length →
      ∃ out', ord.foldlM (fun out t => do let s ← f t; wr out t s) out =
        (.ok out' : M (List W)) ∧
        ∀ k, out'[k]? = if k ∈ ord then some (g k) else out[k]? := by
  intro ord
  induction ord with
  | nil => intro out _ _; exact ⟨out, rfl, by simp⟩
  | cons t ord ih =>
    intro out hf hL
    obtain ⟨h1, h2⟩ := hf t (by simp)
    obtain ⟨out', h3, h4⟩ := ih (out.set t (g t)) (fun s hs => hf s (by simp [hs]))
      (by rw [List.length_set]; exact hL)
    refine ⟨out', ?_, ?_⟩
    · rw [List.foldlM_cons]
      simp only [h2, ok_bind]
      rw [wr_ok _ (by omega), ok_bind]
      exact h3
    · intro k
      rw [h4 k]
      by_cases hk : k ∈ ord
      · simp [hk]
      · by_cases hkt : k = t
        · subst hkt
          have : k < out.length := by omega
          simp [hk, this]
        · rw [List.getElem?_set, if_neg hk, if_neg (Ne.symm hkt), if_neg (by simp [hk, hkt])]

theorem alignedSum_ok (thr : Nat) (e : Env) (S : Kern A W) {outer inner ldx : Nat} (x : List A)
    (p : Option (List A)) (q : Nat → Option A) (out : List W) (v : Nat → Nat → W)
    (h0 : 0 < inner) (ht : 0 < thr) (hld : inner ≤ ldx)
    (hord : e.lines.Perm (List.range outer)) (hout : outer ≤ out.length)
    (hq : ∀ o < outer, paramAt p o = .ok (q o))
    (hv : ∀ o < outer, ∀ i < inner, val S x (q o) (o * ldx + i) = .ok (v o i)) :
    ∃ out', alignedSum thr e S inner x ldx p out = .ok out' ∧
      ∀ k, out'[k]? = if k < outer then some (∑ i ∈ range inner, v k i) else out[k]? := by
  have hmem : ∀ t, t ∈ e.lines ↔ t < outer := fun t => by
    rw [hord.mem_iff, List.mem_range]
  obtain ⟨out', h1, h2⟩ := lines_loop
    (fun i => do
      let q ← paramAt p i
      recSum thr S x q inner (ldx - inner) (inner + 1) inner (i * inner))
    (fun k => ∑ i ∈ range inner, v k i) outer e.lines out (by
      intro t htm
      have hto := (hmem t).1 htm
      refine ⟨hto, ?_⟩
      rw [hq t hto, ok_bind, recSum_ok thr S x (q t) (fun k => v (k / inner) (k % inner))
        (ldx - inner) h0 ht (inner + 1) inner (t * inner) (Nat.lt_succ_self _)]
      · congr 1
        apply sum_congr rfl
        intro i hi
        have hi := mem_range.1 hi
        rw [Nat.mul_comm t, Nat.mul_add_div h0, Nat.div_eq_of_lt hi, Nat.mul_add_mod,
          Nat.mod_eq_of_lt hi, Nat.add_zero]
      · intro i hi
        have hd : (t * inner + i) / inner = t := by
          rw [Nat.mul_comm t, Nat.mul_add_div h0, Nat.div_eq_of_lt hi, Nat.add_zero]
        have hm : (t * inner + i) % inner = i := by
          rw [Nat.mul_comm t, Nat.mul_add_mod, Nat.mod_eq_of_lt hi]
        rw [pos_eq hld, hd, hm]
        exact hv t hto i hi) hout
  refine ⟨out', ?_, ?_⟩
  · unfold alignedSum
    rw [← h1]
    congr 1
    funext out i
    simp only [bind_assoc]
  · intro k
    rw [h2 k]
    by_cases hk : k < outer
    · rw [if_pos ((hmem k).2 hk), if_pos hk]
    · rw [if_neg (fun h => hk ((hmem k).1 h)), if_neg hk]

end Verif.Moments
