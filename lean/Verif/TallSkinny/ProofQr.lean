import Verif.TallSkinny.ModelQr
import Verif.TallSkinny.Proof

/-
What the blocked QR factorisation computes.
-/
namespace Verif.TallSkinny

open Verif.Logistic Verif.PairDist Spec

set_option linter.unusedSectionVars false

section
variable {K : Type*} [Field K] [LinearOrder K]

/-- What `geqrf` and `orgqr` promise: a matrix that is at least as high as wide is the product of a
matrix with orthonormal columns, which `orgqr` makes, and of the upper triangle that `geqrf` leaves. -/
def Lapack.Sound (la : Lapack K) : Prop :=
  ∀ h n B, n ≤ h →
    let F := la.geqrf h n (seen h n B)
    let Q := la.orgqr h n (below h n F.1) (upTo n F.2)
    Orthonormal h n Q ∧ ∀ r c, r < h → c < n →
      B r c = ∑ l ∈ Finset.range n, Q r l * if l ≤ c then F.1 l c else 0

theorem sum_heights (f : Nat → K) {nb bs fin m : Nat} (hnb : 0 < nb) (hm : (nb - 1) * bs + fin = m) :
    ∑ i ∈ Finset.range nb, ∑ r ∈ Finset.range (height nb bs fin i), f (i * bs + r) =
      ∑ g ∈ Finset.range m, f g := by
  obtain ⟨q, rfl⟩ : ∃ q, nb = q + 1 := ⟨nb - 1, by omega⟩
  rw [Nat.add_sub_cancel] at hm
  have h1 : height (q + 1) bs fin q = fin := if_pos rfl
  rw [Finset.sum_range_succ, h1, Finset.sum_congr rfl fun b hb => ?_, sum_tiles f, ← hm]
  · rw [Finset.sum_range_add]
  · have : height (q + 1) bs fin b = bs := if_neg (by have := Finset.mem_range.1 hb; omega)
    rw [this]

/-- Blocks: they cover the rows and each is at least as high as wide. -/
structure Tall (m n nb bs fin : Nat) : Prop where
  pos : 0 < nb
  cover : (nb - 1) * bs + fin = m
  tall : ∀ i, i < nb → n ≤ height nb bs fin i

theorem Tall.le {m n nb bs fin : Nat} (t : Tall m n nb bs fin) {i : Nat} (hi : i < nb) :
    i * bs + height nb bs fin i ≤ m := by
  have := t.cover
  unfold height
  by_cases e : i = nb - 1
  · rw [if_pos e, e]; omega
  · rw [if_neg e]
    have : (i + 1) * bs ≤ (nb - 1) * bs := Nat.mul_le_mul_right _ (by omega)
    rw [Nat.add_mul] at this
    omega

theorem Tall.before {m n nb bs fin : Nat} (t : Tall m n nb bs fin) {i i' : Nat} (hi : i < i')
    (hi' : i' < nb) : i * bs + height nb bs fin i ≤ i' * bs := by
  unfold height
  rw [if_neg (by omega)]
  have : (i + 1) * bs ≤ i' * bs := Nat.mul_le_mul_right _ (by omega)
  rw [Nat.add_mul] at this
  omega

/-- A row is in one block only. -/
theorem Tall.row_inj {m n nb bs fin : Nat} (t : Tall m n nb bs fin) {i r i' r' : Nat} (hi : i < nb)
    (hr : r < height nb bs fin i) (hi' : i' < nb) (hr' : r' < height nb bs fin i')
    (e : i * bs + r = i' * bs + r') : i = i' ∧ r = r' := by
  rcases Nat.lt_trichotomy i i' with h | h | h
  · have := t.before h hi'; omega
  · subst h; omega
  · have := t.before h hi; omega

/-- Every row is in some block. -/
theorem Tall.row_of {m n nb bs fin : Nat} (t : Tall m n nb bs fin) {g : Nat} (hg : g < m) :
    ∃ i r, i < nb ∧ r < height nb bs fin i ∧ g = i * bs + r := by
  have hc := t.cover
  have hp := t.pos
  by_cases h : (nb - 1) * bs ≤ g
  · exact ⟨nb - 1, g - (nb - 1) * bs, by omega, by unfold height; rw [if_pos rfl]; omega, by omega⟩
  · have hb : 0 < bs := by
      rcases Nat.eq_zero_or_pos bs with e | e
      · subst e; simp at h
      · exact e
    have h1 : g / bs < nb - 1 := (Nat.div_lt_iff_lt_mul hb).2 (by omega)
    refine ⟨g / bs, g % bs, by omega, ?_, ?_⟩
    · unfold height; rw [if_neg (by omega)]; exact Nat.mod_lt _ hb
    · have := Nat.div_add_mod g bs
      rw [Nat.mul_comm] at this; omega

theorem Tall.cell_ne {m n nb bs fin lda : Nat} (t : Tall m n nb bs fin) (hl : m ≤ lda)
    {i r c i' r' c' : Nat} (hi : i < nb) (hr : r < height nb bs fin i) (hi' : i' < nb)
    (hr' : r' < height nb bs fin i')
    (e : i * bs + (r + c * lda) = i' * bs + (r' + c' * lda)) : i = i' ∧ r = r' ∧ c = c' := by
  have h1 := t.le hi
  have h2 := t.le hi'
  have := cell_inj (ns := lda) (k := c) (k' := c') (i := i * bs + r) (i' := i' * bs + r') (by omega)
    (by omega) (by omega)
  have h3 := t.row_inj hi hr hi' hr' this.2
  exact ⟨h3.1, h3.2, this.1⟩

/-- The factors of block `i`. -/
def facOf (la : Lapack K) (n : Nat) (A : Nat → K) (lda nb bs fin i : Nat) :
    (Nat → Nat → K) × (Nat → K) :=
  la.geqrf (height nb bs fin i) n (seen (height nb bs fin i) n fun r c => A (i * bs + (r + c * lda)))

/-- The state after the blocks in `P`. -/
structure QrAfter (la : Lapack K) (n : Nat) (A : Nat → K) (lda nb bs fin : Nat) (P : List Nat)
    (s : QrState K) : Prop where
  blk : ∀ i r c, i < nb → r < height nb bs fin i → c < n → s.A (i * bs + (r + c * lda)) =
    if i ∈ P then (facOf la n A lda nb bs fin i).1 r c else A (i * bs + (r + c * lda))
  tau : ∀ i x, i < nb → i ∈ P → x < n → s.tau (i * n + x) = (facOf la n A lda nb bs fin i).2 x
  rb : 1 < nb → ∀ i k j, i < nb → k < n → j < n → s.Rb (i * n + k + j * (nb * n)) =
    if i ∈ P ∧ k ≤ j then (facOf la n A lda nb bs fin i).1 k j else 0

/-- A matrix written entry by entry. -/
theorem write_wr {h n : Nat} {idx : Nat → Nat → Nat} (F : Nat → Nat → K)
    (inj : Inj idx fun r c => r < h ∧ c < n) :
    Wr (fun A => loop n A fun c A => loop h A fun r A => upd A (idx r c) (F r c)) idx
      (fun r c => r < h ∧ c < n) fun r c _ => F r c :=
  Wr.rect (G := fun r c _ => F r c) inj

theorem qr_step {la : Lapack K} {m n : Nat} {A : Nat → K} {lda nb bs fin : Nat} {P : List Nat}
    {s : QrState K} (t : Tall m n nb bs fin) (hl : m ≤ lda)
    (h : QrAfter la n A lda nb bs fin P s) {i : Nat} (hi : i < nb) (hP : i ∉ P) :
    QrAfter la n A lda nb bs fin (P ++ [i]) (qrBlock la n lda nb bs fin i s) := by
  have hF : la.geqrf (height nb bs fin i) n (seen (height nb bs fin i) n fun r c =>
      s.A (i * bs + (r + c * lda))) = facOf la n A lda nb bs fin i := by
    unfold facOf
    congr 1
    funext r c
    unfold seen
    by_cases hd : r < height nb bs fin i ∧ c < n
    · rw [if_pos hd, if_pos hd]
      simp only
      rw [h.blk i r c hi hd.1 hd.2, if_neg hP]
    · rw [if_neg hd, if_neg hd]
  obtain ⟨F, hFe⟩ : ∃ F, F = facOf la n A lda nb bs fin i := ⟨_, rfl⟩
  have wA := write_wr (h := height nb bs fin i) (n := n) (idx := fun r c => i * bs + (r + c * lda)) F.1
    (fun r c r' c' d d' e => (t.cell_ne hl hi d.1 hi d'.1 e).2) s.A
  obtain ⟨A', hA'⟩ : ∃ A', A' = loop n s.A fun c A => loop (height nb bs fin i) A fun r A =>
    upd A (i * bs + (r + c * lda)) (F.1 r c) := ⟨_, rfl⟩
  simp only [← hA'] at wA
  have e : qrBlock la n lda nb bs fin i s = ⟨A',
      loop (min (height nb bs fin i) n) s.tau fun r tau => upd tau (i * n + r) (F.2 r),
      if 1 < nb then loop n s.Rb fun j Rb => loop (j + 1) Rb fun k Rb =>
          upd Rb (i * n + nb * n * j + k) (A' (i * bs + lda * j + k)) else s.Rb⟩ := by
    unfold qrBlock
    simp only [hF, ← hFe, ← hA']
  rw [e]
  refine ⟨fun i' r c hi' hr hc => ?_, fun i' x hi' hx hxn => ?_, fun hnb i' k j hi' hk hj => ?_⟩
  · simp only
    by_cases ei : i' = i
    · subst ei
      rw [if_pos (by simp), ← hFe]
      exact wA.1 r c ⟨hr, hc⟩
    · rw [wA.2 _ fun r' c' d he => ei (t.cell_ne hl hi' hr hi d.1 he).1, h.blk i' r c hi' hr hc]
      simp [ei]
  · simp only
    rw [Nat.min_eq_right (t.tall i hi), loop_upd n s.tau (i * n) (fun r _ => F.2 r)]
    by_cases ei : i' = i
    · subst ei
      rw [if_pos (by omega), Nat.add_sub_cancel_left, hFe]
    · rw [if_neg, h.tau i' x hi' (by simpa [ei] using hx) hxn]
      rintro ⟨a, b⟩
      have := cell_inj (ns := n) (k := i') (k' := i) (i := x) (i' := i' * n + x - i * n) hxn
        (by omega) (by omega)
      exact ei this.1
  · simp only [if_pos hnb]
    have hrow : ∀ a k, a < nb → k < n → a * n + k < nb * n := fun a k ha hk => by
      have : (a + 1) * n ≤ nb * n := Nat.mul_le_mul_right _ ha
      rw [Nat.add_mul] at this; omega
    have hne : ∀ a k j a' k' j', a < nb → k < n → a' < nb → k' < n →
        a * n + k + j * (nb * n) = a' * n + nb * n * j' + k' → a = a' ∧ k = k' ∧ j = j' := by
      intro a k j a' k' j' ha hk ha' hk' he
      have h1 := cell_inj (ns := nb * n) (k := j) (k' := j') (hrow a k ha hk) (hrow a' k' ha' hk')
        (by rw [Nat.mul_comm (nb * n)] at he; omega)
      have h2 := cell_inj hk hk' h1.2
      exact ⟨h2.1, h2.2, h1.1⟩
    have w := Wr.nest (K := K) (n := n) (b := fun j => j + 1) (h := fun k j C =>
      upd C (i * n + nb * n * j + k) (A' (i * bs + lda * j + k)))
      (idx := fun k j => i * n + nb * n * j + k)
      (G := fun k j _ => A' (i * bs + lda * j + k))
      (fun k j k' j' d d' he => by
        have := hne i k j i k' j' hi (by omega) hi (by omega)
          (by rw [Nat.mul_comm j]; simp only at he; omega)
        exact this.2)
      (fun k j C _ _ => upd_same _ _ _) (fun k j C c _ _ hc => upd_ne _ _ hc) s.Rb
    by_cases ei : i' = i
    · subst ei
      by_cases hkj : k ≤ j
      · rw [if_pos (by simp [hkj])]
        have := w.1 k j ⟨hj, by omega⟩
        rw [show i' * n + k + j * (nb * n) = i' * n + nb * n * j + k by
          rw [Nat.mul_comm j]; omega]
        refine this.trans ?_
        simp only
        rw [← hFe, show i' * bs + lda * j + k = i' * bs + (k + j * lda) by
          rw [Nat.mul_comm lda]; omega]
        exact wA.1 k j ⟨by have := t.tall i' hi; omega, hj⟩
      · rw [if_neg (by simp [hkj])]
        refine (w.2 _ fun k' j' d he => ?_).trans ?_
        · have := hne i' k j i' k' j' hi hk hi (by omega) he
          omega
        · rw [h.rb hnb i' k j hi' hk hj, if_neg (by simp [hkj])]
    · refine (w.2 _ fun k' j' d he => ei (hne i' k j i k' j' hi' hk hi (by omega) he).1).trans ?_
      rw [h.rb hnb i' k j hi' hk hj]
      simp [ei]

theorem qr_all {la : Lapack K} {m n : Nat} {A : Nat → K} {lda nb bs fin : Nat}
    (t : Tall m n nb bs fin) (hl : m ≤ lda) (tau0 : Nat → K) (L : List Nat) (hL : ∀ i ∈ L, i < nb)
    (hN : L.Nodup) : QrAfter la n A lda nb bs fin L
      (L.foldl (fun s i => qrBlock la n lda nb bs fin i s) ⟨A, tau0, fun _ => 0⟩) := by
  induction L using List.reverseRecOn with
  | nil => exact ⟨fun i r c _ _ _ => by simp, fun i x _ h => by simp at h, fun _ i k j _ _ _ => by simp⟩
  | append_singleton L x ih =>
    rw [List.foldl_append]
    obtain ⟨n1, -, n3⟩ := List.nodup_append.1 hN
    exact qr_step t hl (ih (fun y hy => hL y (List.mem_append_left _ hy)) n1) (hL x (by simp))
      fun hx => n3 x hx x (by simp) rfl

theorem rows_exist {m n nb bs fin : Nat} (t : Tall m n nb bs fin) {S : Type*} (d : S)
    (f : Nat → Nat → S) :
    ∃ Q : Nat → S, ∀ i r, i < nb → r < height nb bs fin i → Q (i * bs + r) = f i r := by
  classical
  refine ⟨fun g => if h : ∃ x : Nat × Nat, x.1 < nb ∧ x.2 < height nb bs fin x.1 ∧
    g = x.1 * bs + x.2 then f h.choose.1 h.choose.2 else d, fun i r hi hr => ?_⟩
  have h : ∃ x : Nat × Nat, x.1 < nb ∧ x.2 < height nb bs fin x.1 ∧ i * bs + r = x.1 * bs + x.2 :=
    ⟨(i, r), hi, hr, rfl⟩
  simp only [dif_pos h]
  obtain ⟨a, b, c⟩ := h.choose_spec
  have := t.row_inj hi hr a b c
  rw [← this.1, ← this.2]

/-- The columns of a block diagonal matrix with orthonormal blocks, times orthonormal columns. -/
theorem product_orth {m n nb bs fin : Nat} (t : Tall m n nb bs fin) {q : Nat → Nat → Nat → K}
    {W Q : Nat → Nat → K} (hq : ∀ i, i < nb → Orthonormal (height nb bs fin i) n (q i))
    (hW : Orthonormal (nb * n) n W) (hQ : ∀ i r, i < nb → r < height nb bs fin i →
      Q (i * bs + r) = fun a => ∑ k ∈ Finset.range n, q i r k * W (i * n + k) a) :
    Orthonormal m n Q := by
  intro a b ha hb
  rw [← sum_heights (fun g => Q g a * Q g b) t.pos t.cover, ← hW a b ha hb,
    ← sum_tiles (fun g => W g a * W g b) nb n]
  refine Finset.sum_congr rfl fun i hi => ?_
  have hi' := Finset.mem_range.1 hi
  have e : ∀ r ∈ Finset.range (height nb bs fin i), Q (i * bs + r) a * Q (i * bs + r) b =
      ∑ k ∈ Finset.range n, ∑ k' ∈ Finset.range n,
        (q i r k * q i r k') * (W (i * n + k) a * W (i * n + k') b) := fun r hr => by
    rw [hQ i r hi' (Finset.mem_range.1 hr), Finset.sum_mul_sum]
    exact Finset.sum_congr rfl fun k _ => Finset.sum_congr rfl fun k' _ => by ring
  rw [Finset.sum_congr rfl e, Finset.sum_comm]
  refine Finset.sum_congr rfl fun k hk => ?_
  rw [Finset.sum_comm]
  have e' : ∀ k' ∈ Finset.range n, ∑ r ∈ Finset.range (height nb bs fin i),
      (q i r k * q i r k') * (W (i * n + k) a * W (i * n + k') b) =
        if k = k' then W (i * n + k) a * W (i * n + k') b else 0 := fun k' hk' => by
    rw [← Finset.sum_mul, hq i hi' k k' (Finset.mem_range.1 hk) (Finset.mem_range.1 hk')]
    by_cases h : k = k'
    · rw [if_pos h, if_pos h, one_mul]
    · rw [if_neg h, if_neg h, zero_mul]
  rw [Finset.sum_congr rfl e', Finset.sum_ite_eq, if_pos hk]

/-- A triangle copied into zeros. -/
theorem triangle_at {n : Nat} (f : Nat → Nat → K) {i j : Nat} (hi : i < n) (hj : j < n) :
    (loop n (fun _ => (0 : K)) fun j R => loop (j + 1) R fun i R => upd R (i + j * n) (f i j))
      (i + j * n) = if i ≤ j then f i j else 0 := by
  have hne : ∀ i j i' j', i < n → i' < n → i + j * n = i' + j' * n → i = i' ∧ j = j' :=
    fun i j i' j' hi hi' e => by
      have := cell_inj (ns := n) (k := j) (k' := j') hi hi' (by omega)
      exact ⟨this.2, this.1⟩
  have w := Wr.nest (K := K) (n := n) (b := fun j => j + 1) (h := fun i j C =>
    upd C (i + j * n) (f i j)) (idx := fun i j => i + j * n) (G := fun i j _ => f i j)
    (fun i j i' j' d d' e => hne i j i' j' (by omega) (by omega) e)
    (fun i j C _ _ => upd_same _ _ _) (fun i j C c _ _ hc => upd_ne _ _ hc) fun _ => 0
  by_cases h : i ≤ j
  · rw [if_pos h]; exact w.1 i j ⟨hj, by omega⟩
  · rw [if_neg h]
    refine w.2 _ fun i' j' d e => ?_
    have := hne i j i' j' hi (by omega) e
    omega

/-- The orthogonal factor of block `i`. -/
def ortOf (la : Lapack K) (n : Nat) (A : Nat → K) (lda nb bs fin i : Nat) : Nat → Nat → K :=
  la.orgqr (height nb bs fin i) n (below (height nb bs fin i) n (facOf la n A lda nb bs fin i).1)
    (upTo n (facOf la n A lda nb bs fin i).2)

/-- The second stage: a matrix with orthonormal columns that gives the stacked triangles from `R` and
that `da_qr_apply` multiplies with first. -/
theorem second_stage {la : Lapack K} (hla : la.Sound) {m n : Nat} {A : Nat → K}
    {lda nb bs fin : Nat} (t : Tall m n nb bs fin) (hl : m ≤ lda) (tau0 tauR0 : Nat → K) {L : List Nat}
    (hL : L.Perm (List.range nb)) : ∃ W : Nat → Nat → K, Orthonormal (nb * n) n W ∧
    (∀ i j, i < n → j < n → j < i → (daQr la n A lda nb bs fin L tau0 tauR0).R (i + j * n) = 0) ∧
    (∀ i k c, i < nb → k < n → c < n → (if k ≤ c then (facOf la n A lda nb bs fin i).1 k c else 0) =
      ∑ l ∈ Finset.range n, W (i * n + k) l * (daQr la n A lda nb bs fin L tau0 tauR0).R (l + c * n)) ∧
    (∀ i, i < nb → la.orgqr (height nb bs fin i) (min fin n) (below (height nb bs fin i) (min fin n)
      fun a l => (daQr la n A lda nb bs fin L tau0 tauR0).A (i * bs + (a + l * lda)))
      (upTo (min fin n) fun x => (daQr la n A lda nb bs fin L tau0 tauR0).tau (i * n + x)) =
        ortOf la n A lda nb bs fin i) ∧
    ∀ r C ldc L', ∃ QC : Nat → K,
      (∀ i l c, i < nb → l < n → c < r → QC (i * n + (l + c * (nb * n))) =
        ∑ a ∈ Finset.range n, W (i * n + l) a * C (a + c * ldc)) ∧
      daQrApply la n (daQr la n A lda nb bs fin L tau0 tauR0) lda nb bs fin r C ldc L' =
        L'.foldl (fun C i =>
          let h := height nb bs fin i
          let Q := la.orgqr h (min fin n) (below h (min fin n) fun a l =>
            (daQr la n A lda nb bs fin L tau0 tauR0).A (i * bs + (a + l * lda)))
            (upTo (min fin n) fun x => (daQr la n A lda nb bs fin L tau0 tauR0).tau (i * n + x))
          loop r C fun c C => loop h C fun a C => upd C (i * bs + (a + c * ldc))
            (loop (min fin n) 0 fun l s => s + Q a l * QC (i * n + (l + c * (nb * n))))) C := by
  have hm : ∀ i, i ∈ L ↔ i < nb := fun i => by rw [hL.mem_iff, List.mem_range]
  have h := qr_all (la := la) (A := A) t hl tau0 L (fun i => (hm i).1) (hL.nodup_iff.2 List.nodup_range)
  obtain ⟨s, hs⟩ : ∃ s, s = L.foldl (fun s i => qrBlock la n lda nb bs fin i s)
    ⟨A, tau0, fun _ => 0⟩ := ⟨_, rfl⟩
  rw [← hs] at h
  have hA : (daQr la n A lda nb bs fin L tau0 tauR0).A = s.A := by
    unfold daQr; rw [hs]; split <;> rfl
  have htau : (daQr la n A lda nb bs fin L tau0 tauR0).tau = s.tau := by
    unfold daQr; rw [hs]; split <;> rfl
  have hfin : min fin n = n := by
    have := t.tall (nb - 1) (by have := t.pos; omega)
    unfold height at this
    rw [if_pos rfl] at this
    omega
  have hort : ∀ i, i < nb → la.orgqr (height nb bs fin i) (min fin n)
      (below (height nb bs fin i) (min fin n)
      fun a l => (daQr la n A lda nb bs fin L tau0 tauR0).A (i * bs + (a + l * lda)))
      (upTo (min fin n) fun x => (daQr la n A lda nb bs fin L tau0 tauR0).tau (i * n + x)) =
        ortOf la n A lda nb bs fin i := fun i hi => by
    rw [hA, htau, hfin]
    unfold ortOf
    congr 1
    · funext a l
      unfold below
      by_cases hd : a < height nb bs fin i ∧ l < n ∧ l < a
      · rw [if_pos hd, if_pos hd]
        simp only
        rw [h.blk i a l hi hd.1 hd.2.1, if_pos ((hm i).2 hi)]
      · rw [if_neg hd, if_neg hd]
    · funext x
      unfold upTo
      by_cases hx : x < n
      · rw [if_pos hx, if_pos hx]
        exact h.tau i x hi ((hm i).2 hi) hx
      · rw [if_neg hx, if_neg hx]
  by_cases hnb : 1 < nb
  · obtain ⟨F, hF⟩ : ∃ F, F = la.geqrf (nb * n) n (seen (nb * n) n fun r c => s.Rb (r + c * (nb * n))) :=
      ⟨_, rfl⟩
    have hmr : n ≤ nb * n := Nat.le_mul_of_pos_left _ t.pos
    have hso := hla (nb * n) n (fun r c => s.Rb (r + c * (nb * n))) hmr
    simp only [← hF] at hso
    obtain ⟨W, hW⟩ : ∃ W, W = la.orgqr (nb * n) n (below (nb * n) n F.1) (upTo n F.2) := ⟨_, rfl⟩
    rw [← hW] at hso
    have wR := write_wr (h := nb * n) (n := n) (idx := fun r c => r + c * (nb * n)) F.1
      (fun r c r' c' d d' e => by
        have := cell_inj (ns := nb * n) (k := c) (k' := c') d.1 d'.1 (by simp only at e; omega)
        exact ⟨this.2, this.1⟩) s.Rb
    obtain ⟨Rb, hRb⟩ : ∃ Rb, Rb = loop n s.Rb fun c Rb => loop (nb * n) Rb fun r Rb =>
      upd Rb (r + c * (nb * n)) (F.1 r c) := ⟨_, rfl⟩
    simp only [← hRb] at wR
    have e : daQr la n A lda nb bs fin L tau0 tauR0 = ⟨s.A, s.tau, Rb,
        loop n tauR0 fun r tau => upd tau r (F.2 r),
        loop n (fun _ => 0) fun j R => loop (j + 1) R fun i R =>
          upd R (i + j * n) (Rb (i + j * (nb * n)))⟩ := by
      unfold daQr
      simp only [if_pos hnb, ← hs, ← hF, ← hRb]
    have hR : ∀ i j, i < n → j < n → (daQr la n A lda nb bs fin L tau0 tauR0).R (i + j * n) =
        if i ≤ j then F.1 i j else 0 := fun i j hi hj => by
      rw [e]
      simp only
      rw [triangle_at (fun i j => Rb (i + j * (nb * n))) hi hj]
      by_cases hij : i ≤ j
      · rw [if_pos hij, if_pos hij]; exact wR.1 i j ⟨by omega, hj⟩
      · rw [if_neg hij, if_neg hij]
    have hrow : ∀ a k, a < nb → k < n → a * n + k < nb * n := fun a k ha hk => by
      have : (a + 1) * n ≤ nb * n := Nat.mul_le_mul_right _ ha
      rw [Nat.add_mul] at this; omega
    refine ⟨W, hso.1, fun i j hi hj hij => ?_, fun i k c hi hk hc => ?_, hort, fun r C ldc L' => ?_⟩
    · rw [hR i j hi hj, if_neg (by omega)]
    · have h1 := h.rb hnb i k c hi hk hc
      have h2 := hso.2 (i * n + k) c (hrow i k hi hk) hc
      simp only [hm i, hi, true_and] at h1
      rw [← h1, h2]
      exact Finset.sum_congr rfl fun l hl => by rw [hR l c (Finset.mem_range.1 hl) hc]
    · have hQ : la.orgqr (nb * n) n (below (nb * n) n fun a l =>
          (daQr la n A lda nb bs fin L tau0 tauR0).Rb (a + l * (nb * n)))
          (upTo n (daQr la n A lda nb bs fin L tau0 tauR0).tauR) = W := by
        rw [hW, e]
        simp only
        congr 1
        · funext a l
          unfold below
          by_cases hd : a < nb * n ∧ l < n ∧ l < a
          · rw [if_pos hd, if_pos hd]; exact wR.1 a l ⟨hd.1, hd.2.1⟩
          · rw [if_neg hd, if_neg hd]
        · funext x
          unfold upTo
          by_cases hx : x < n
          · rw [if_pos hx, if_pos hx, loop_upd0 n tauR0 (fun r _ => F.2 r), if_pos hx]
          · rw [if_neg hx, if_neg hx]
      refine ⟨loop r (fun _ => 0) fun c QC => loop (nb * n) QC fun a QC =>
        upd QC (a + c * (nb * n)) (loop n 0 fun l s => s + W a l * C (l + c * ldc)), ?_, ?_⟩
      · intro i l c hi hl' hc
        have := (write_wr (K := K) (h := nb * n) (n := r) (idx := fun a c => a + c * (nb * n))
          (fun a c => loop n 0 fun l s => s + W a l * C (l + c * ldc))
          (fun r c r' c' d d' e => by
            have := cell_inj (ns := nb * n) (k := c) (k' := c') d.1 d'.1 (by simp only at e; omega)
            exact ⟨this.2, this.1⟩) fun _ => 0).1 (i * n + l) c ⟨hrow i l hi hl', hc⟩
        rw [← Nat.add_assoc]
        refine this.trans ?_
        simp only
        rw [loop_sum, zero_add]
      · unfold daQrApply
        simp only [if_pos hnb, hQ]
  · have h1 : nb = 1 := by have := t.pos; omega
    have hR : ∀ i j, i < n → j < n → (daQr la n A lda nb bs fin L tau0 tauR0).R (i + j * n) =
        if i ≤ j then (facOf la n A lda nb bs fin 0).1 i j else 0 := fun i j hi hj => by
      have e : (daQr la n A lda nb bs fin L tau0 tauR0).R = loop n (fun _ => 0) fun j R =>
          loop (j + 1) R fun i R => upd R (i + j * n) (s.A (i + j * lda)) := by
        unfold daQr
        simp only [if_neg hnb, ← hs]
      rw [e, triangle_at (fun i j => s.A (i + j * lda)) hi hj]
      by_cases hij : i ≤ j
      · rw [if_pos hij, if_pos hij]
        have := h.blk 0 i j t.pos (by have := t.tall 0 t.pos; omega) hj
        rw [if_pos ((hm 0).2 t.pos), Nat.zero_mul, Nat.zero_add] at this
        exact this
      · rw [if_neg hij, if_neg hij]
    refine ⟨fun g a => if g = a then 1 else 0, fun a b ha hb => ?_, fun i j hi hj hij => ?_,
      fun i k c hi hk hc => ?_, hort, fun r C ldc L' => ?_⟩
    · simp only [ite_mul, one_mul, zero_mul]
      rw [Finset.sum_ite_eq', if_pos (Finset.mem_range.2 (by rw [h1, Nat.one_mul]; exact ha))]
    · rw [hR i j hi hj, if_neg (by omega)]
    · obtain rfl : i = 0 := by omega
      simp only [ite_mul, one_mul, zero_mul, Nat.zero_add]
      rw [Finset.sum_ite_eq, if_pos (Finset.mem_range.2 hk), hR k c hk hc]
    · refine ⟨loop r (fun _ => 0) fun j QC => loop n QC fun i QC => upd QC (j * n + i)
        (C (j * ldc + i)), ?_, ?_⟩
      · intro i l c hi hl' hc
        obtain rfl : i = 0 := by omega
        have := (write_wr (K := K) (h := n) (n := r) (idx := fun a c => c * n + a)
          (fun a c => C (c * ldc + a)) (fun r c r' c' d d' e => by
            have := cell_inj (ns := n) (k := c) (k' := c') d.1 d'.1 e
            exact ⟨this.2, this.1⟩) fun _ => 0).1 l c ⟨hl', hc⟩
        simp only [ite_mul, one_mul, zero_mul, Nat.zero_add]
        rw [Finset.sum_ite_eq, if_pos (Finset.mem_range.2 hl'), h1, Nat.one_mul, Nat.add_comm l,
          Nat.add_comm l]
        exact this
      · unfold daQrApply
        simp only [if_neg hnb]

theorem qr_correct {la : Lapack K} (hla : la.Sound) {m n : Nat} {A : Nat → K}
    {lda nb bs fin : Nat} (t : Tall m n nb bs fin) (hl : m ≤ lda) (tau0 tauR0 : Nat → K) {L : List Nat}
    (hL : L.Perm (List.range nb)) : ∃ Q : Nat → Nat → K,
      Factorised m n A lda Q (daQr la n A lda nb bs fin L tau0 tauR0).R ∧
      ∀ r C ldc L', m ≤ ldc → L'.Perm (List.range nb) → Applied m n r Q C ldc
        (daQrApply la n (daQr la n A lda nb bs fin L tau0 tauR0) lda nb bs fin r C ldc L') := by
  obtain ⟨W, w1, w2, w3, w4, w5⟩ := second_stage hla t hl tau0 tauR0 hL (A := A)
  obtain ⟨R, hR⟩ : ∃ R, R = (daQr la n A lda nb bs fin L tau0 tauR0).R := ⟨_, rfl⟩
  simp only [← hR] at w2 w3
  have hq : ∀ i, i < nb → Orthonormal (height nb bs fin i) n (ortOf la n A lda nb bs fin i) ∧
      ∀ r c, r < height nb bs fin i → c < n → A (i * bs + (r + c * lda)) =
        ∑ l ∈ Finset.range n, ortOf la n A lda nb bs fin i r l *
          if l ≤ c then (facOf la n A lda nb bs fin i).1 l c else 0 := fun i hi =>
    hla (height nb bs fin i) n (fun r c => A (i * bs + (r + c * lda))) (t.tall i hi)
  obtain ⟨Q, hQ⟩ := rows_exist t (fun _ => 0) fun i r a =>
    ∑ k ∈ Finset.range n, ortOf la n A lda nb bs fin i r k * W (i * n + k) a
  refine ⟨Q, ⟨product_orth t (fun i hi => (hq i hi).1) w1 hQ, ?_, fun g c hg hc => ?_⟩,
    fun r C ldc L' hc hL' => ?_⟩
  · rw [← hR]; exact w2
  · obtain ⟨i, r, hi, hr, rfl⟩ := t.row_of hg
    rw [← hR, Nat.add_assoc, (hq i hi).2 r c hr hc, hQ i r hi hr]
    simp only [Finset.sum_mul]
    rw [Finset.sum_comm]
    refine Finset.sum_congr rfl fun k hk => ?_
    rw [w3 i k c hi (Finset.mem_range.1 hk) hc, Finset.mul_sum]
    exact Finset.sum_congr rfl fun l _ => by ring
  · obtain ⟨QC, q1, q2⟩ := w5 r C ldc L'
    have hfin : min fin n = n := by
      have := t.tall (nb - 1) (by have := t.pos; omega)
      unfold height at this
      rw [if_pos rfl] at this
      omega
    rw [q2]
    have hm : ∀ i, i ∈ L' ↔ i < nb := fun i => by rw [hL'.mem_iff, List.mem_range]
    have step : ∀ i, i ∈ L' → Wr (fun C =>
          let h := height nb bs fin i
          let Q := la.orgqr h (min fin n) (below h (min fin n) fun a l =>
            (daQr la n A lda nb bs fin L tau0 tauR0).A (i * bs + (a + l * lda)))
            (upTo (min fin n) fun x => (daQr la n A lda nb bs fin L tau0 tauR0).tau (i * n + x))
          loop r C fun c C => loop h C fun a C => upd C (i * bs + (a + c * ldc))
            (loop (min fin n) 0 fun l s => s + Q a l * QC (i * n + (l + c * (nb * n)))))
        (fun g c => g + c * ldc)
        (fun g c => (i * bs ≤ g ∧ g < i * bs + height nb bs fin i) ∧ c < r)
        fun g c _ => ∑ l ∈ Finset.range n, Q g l * C (l + c * ldc) := fun i hi => by
      have hi' := (hm i).1 hi
      simp only [w4 i hi']
      refine (write_wr (K := K) (h := height nb bs fin i) (n := r)
        (idx := fun a c => i * bs + (a + c * ldc))
        (fun a c => loop (min fin n) 0 fun l s => s + ortOf la n A lda nb bs fin i a l *
          QC (i * n + (l + c * (nb * n))))
        (fun a c a' c' d d' e => (t.cell_ne hc hi' d.1 hi' d'.1 e).2)).reindex
        (fun g c d => ⟨g - i * bs, c, ⟨by omega, d.2⟩, ?_, fun v => ?_⟩)
        fun a c d => ⟨i * bs + a, c, ⟨⟨by omega, by omega⟩, d.2⟩, ?_⟩
      · show i * bs + (g - i * bs + c * ldc) = g + c * ldc; omega
      · obtain ⟨a, rfl⟩ : ∃ a, g = i * bs + a := ⟨g - i * bs, by omega⟩
        rw [Nat.add_sub_cancel_left, loop_sum, zero_add, hfin, hQ i a hi' (by omega)]
        simp only [Finset.sum_mul]
        rw [Finset.sum_comm]
        refine Finset.sum_congr rfl fun k hk => ?_
        rw [q1 i k c hi' (Finset.mem_range.1 hk) d.2, Finset.mul_sum]
        exact Finset.sum_congr rfl fun l _ => by ring
      · show i * bs + (a + c * ldc) = i * bs + a + c * ldc; omega
    have w := Wr.fold (hL'.nodup_iff.2 List.nodup_range) (idx := fun g c => g + c * ldc)
      (Dom := fun g c => g < m ∧ c < r)
      (fun g c g' c' d d' e => by
        have := cell_inj (ns := ldc) (k := c) (k' := c') (i := g) (i' := g') (by omega) (by omega)
          (by simp only at e; omega)
        exact ⟨this.2, this.1⟩) step
      (fun g c => ⟨fun d => by
          obtain ⟨i, a, hi, ha, rfl⟩ := t.row_of d.1
          exact ⟨i, (hm i).2 hi, ⟨by omega, by omega⟩, d.2⟩,
        fun ⟨i, hi, d, d'⟩ => ⟨by have := t.le ((hm i).1 hi); omega, d'⟩⟩)
      (fun i i' g c hi hi' d d' =>
        (t.row_inj ((hm i).1 hi) (r := g - i * bs) (by omega) ((hm i').1 hi') (r' := g - i' * bs)
          (by omega) (by omega)).1) C
    exact ⟨fun g c hg hc => w.1 g c ⟨hg, hc⟩, fun p hp => w.2 p fun g c d => hp g c d.1 d.2⟩

end
end Verif.TallSkinny
