import Verif.KernelFn.Model
import Verif.PairDist.Bridge

/-
What the loops of the kernel functions write.
-/
namespace Verif.KernelFn

open Verif.Logistic (loop upd loop_inv loop_congr loop_congr_inv upd_same upd_ne)
open Verif.PairDist (cell gemm syrk sqNorms gemmDistance Wr Inj inj_cell lt_steps total loop_foldl)

set_option linter.unusedSectionVars false

section
variable {K : Type*} [Field K] [LinearOrder K]

theorem onPtr_wr {off : Nat} {f : (Nat → K) → Nat → K} {idx : Nat → Nat → Nat}
    {Dom : Nat → Nat → Prop} {G : Nat → Nat → K → K} (h : Wr f idx Dom G) :
    Wr (onPtr off f) (fun i j => off + idx i j) Dom G := by
  intro D
  obtain ⟨h1, h2⟩ := h fun c => D (off + c)
  unfold onPtr
  refine ⟨fun i j d => ?_, fun c hc => ?_⟩
  · simp only
    rw [if_neg (by omega), Nat.add_sub_cancel_left]
    exact h1 i j d
  · by_cases hl : c < off
    · rw [if_pos hl]
    · rw [if_neg hl]
      refine (h2 (c - off) fun i j d e => hc i j d (by simp only; omega)).trans ?_
      show D _ = D _
      congr 1
      omega

theorem blockCount_eq {n bs : Nat} (h : 0 < bs) : blockCount n bs = (n + bs - 1) / bs := by
  unfold blockCount
  have e := Nat.div_add_mod n bs
  have l := Nat.mod_lt n h
  by_cases hr : 0 < n % bs
  · rw [if_pos hr]
    refine (Nat.div_eq_of_lt_le ?_ ?_).symm
    · rw [Nat.add_mul, Nat.mul_comm (n / bs)]; omega
    · rw [Nat.succ_mul, Nat.add_mul, Nat.mul_comm (n / bs)]; omega
  · rw [if_neg hr]
    refine (Nat.div_eq_of_lt_le ?_ ?_).symm
    · rw [Nat.mul_comm (n / bs)]; omega
    · rw [Nat.succ_mul, Nat.mul_comm (n / bs)]; omega

theorem blockLen_eq {n bs i : Nat} (h : 0 < bs) (hi : i * bs < n) :
    blockLen n bs i = min bs (n - i * bs) := by
  have hc : i < blockCount n bs := by rw [blockCount_eq h, lt_steps h]; exact hi
  have e := Nat.div_add_mod n bs
  have l := Nat.mod_lt n h
  rw [Nat.mul_comm] at e
  unfold blockLen
  by_cases h1 : i = blockCount n bs - 1 ∧ 0 < n % bs
  · rw [if_pos h1]
    have : blockCount n bs = n / bs + 1 := by unfold blockCount; rw [if_pos h1.2]
    have hi : i = n / bs := by omega
    subst hi
    omega
  · rw [if_neg h1]
    have key : (i + 1) * bs ≤ n := by
      by_cases hr : 0 < n % bs
      · have : blockCount n bs = n / bs + 1 := by unfold blockCount; rw [if_pos hr]
        have : i + 1 ≤ n / bs := by omega
        have := Nat.mul_le_mul_right bs this
        omega
      · have : blockCount n bs = n / bs := by unfold blockCount; rw [if_neg hr]
        have : i + 1 ≤ n / bs := by omega
        have := Nat.mul_le_mul_right bs this
        omega
    rw [Nat.add_mul] at key
    omega

/-- Blocks of a matrix, in any order. -/
theorem Wr.grid {A B m n : Nat} (hA : 0 < A) (hB : 0 < B) {idx : Nat → Nat → Nat}
    {G : Nat → Nat → K → K} {L : List Nat}
    (hL : L.Perm (List.range (blockCount m A * blockCount n B))) {f : Nat → (Nat → K) → Nat → K}
    (hi : Inj idx fun i j => i < m ∧ j < n)
    (h : ∀ a b, a * A < m → b * B < n → Wr (f (a * blockCount n B + b))
      (fun r s => idx (a * A + r) (b * B + s))
      (fun r s => r < min A (m - a * A) ∧ s < min B (n - b * B))
      fun r s => G (a * A + r) (b * B + s)) :
    Wr (fun C => L.foldl (fun C t => f t C) C) idx (fun i j => i < m ∧ j < n) G := by
  obtain ⟨N, hN⟩ : ∃ N, N = blockCount n B := ⟨_, rfl⟩
  rw [← hN] at hL h
  have hm : ∀ t, t ∈ L → (t / N) * A < m ∧ (t % N) * B < n ∧ t = t / N * N + t % N := by
    intro t ht
    rw [hL.mem_iff, List.mem_range] at ht
    have hN0 : 0 < N := Nat.pos_of_ne_zero fun e => by rw [e] at ht; simp at ht
    have h1 : t / N < blockCount m A := (Nat.div_lt_iff_lt_mul hN0).2 ht
    have h2 : t % N < blockCount n B := by rw [← hN]; exact Nat.mod_lt _ hN0
    rw [blockCount_eq hA, lt_steps hA] at h1
    rw [blockCount_eq hB, lt_steps hB] at h2
    exact ⟨h1, h2, by rw [Nat.mul_comm]; exact (Nat.div_add_mod t N).symm⟩
  refine PairDist.Wr.fold (hL.nodup_iff.2 List.nodup_range)
    (DT := fun t i j => t / N * A ≤ i ∧ t % N * B ≤ j ∧
      (i - t / N * A < min A (m - t / N * A) ∧ j - t % N * B < min B (n - t % N * B))) hi
    (fun t ht => ?_) ?_ ?_
  · obtain ⟨h1, h2, h3⟩ := hm t ht
    have := h _ _ h1 h2
    rw [← h3] at this
    exact this.shift (idx := idx) _ _ G (fun _ _ _ => rfl) fun _ _ _ _ => rfl
  · intro i j
    constructor
    · intro d
      have e := Nat.div_add_mod i A
      rw [Nat.mul_comm] at e
      have e' := Nat.mod_lt i hA
      have g := Nat.div_add_mod j B
      rw [Nat.mul_comm] at g
      have g' := Nat.mod_lt j hB
      have a1 : i / A < blockCount m A := by rw [blockCount_eq hA, lt_steps hA]; omega
      have a2 : j / B < N := by rw [hN, blockCount_eq hB, lt_steps hB]; omega
      have b1 : (i / A * N + j / B) / N = i / A := by
        rw [Nat.mul_comm, Nat.mul_add_div (Nat.zero_lt_of_lt a2), Nat.div_eq_of_lt a2, Nat.add_zero]
      have b2 : (i / A * N + j / B) % N = j / B := by
        rw [Nat.mul_comm, Nat.mul_add_mod, Nat.mod_eq_of_lt a2]
      refine ⟨i / A * N + j / B, ?_, ?_⟩
      · rw [hL.mem_iff, List.mem_range]
        calc i / A * N + j / B < i / A * N + N := Nat.add_lt_add_left a2 _
          _ = (i / A + 1) * N := by rw [Nat.add_mul, Nat.one_mul]
          _ ≤ _ := Nat.mul_le_mul_right _ a1
      · rw [b1, b2]
        omega
    · rintro ⟨t, ht, d⟩
      have := hm t ht
      omega
  · intro t t' i j ht ht' d d'
    have c1 : t / N = i / A := (Nat.div_eq_of_lt_le (by omega) (by rw [Nat.succ_mul]; omega)).symm
    have c2 : t' / N = i / A := (Nat.div_eq_of_lt_le (by omega) (by rw [Nat.succ_mul]; omega)).symm
    have c3 : t % N = j / B := (Nat.div_eq_of_lt_le (by omega) (by rw [Nat.succ_mul]; omega)).symm
    have c4 : t' % N = j / B := (Nat.div_eq_of_lt_le (by omega) (by rw [Nat.succ_mul]; omega)).symm
    rw [(hm t ht).2.2, (hm t' ht').2.2, c1, c2, c3, c4]

theorem overBlocks_wr {row : Bool} {m n ldd : Nat} (hm : 0 < m) (hn : 0 < n)
    (hl : if row then n ≤ ldd else m ≤ ldd) (ldx ldy : Nat) {L : List Nat}
    (hL : L.Perm (List.range (blockCount m (min m maxBlock) * blockCount n (min n maxBlock))))
    {body : Nat → Nat → Nat → Nat → Nat → Nat → (Nat → K) → Nat → K} {G : Nat → Nat → K → K}
    (h : ∀ i0 j0 p q, min m maxBlock ∣ i0 → min n maxBlock ∣ j0 → i0 < m → j0 < n →
      p = min (min m maxBlock) (m - i0) → q = min (min n maxBlock) (n - j0) →
      Wr (body p q (if row then i0 * ldx else i0) (if row then j0 * ldy else j0) i0 j0)
        (cell row ldd) (fun r s => r < p ∧ s < q) fun r s => G (i0 + r) (j0 + s)) :
    Wr (overBlocks row m n ldx ldy ldd L body) (cell row ldd) (fun i j => i < m ∧ j < n) G := by
  have pb : 0 < maxBlock := by decide
  obtain ⟨A, hA⟩ : ∃ A, A = min m maxBlock := ⟨_, rfl⟩
  obtain ⟨B, hB⟩ : ∃ B, B = min n maxBlock := ⟨_, rfl⟩
  have pA : 0 < A := by omega
  have pB : 0 < B := by omega
  rw [← hA, ← hB] at hL h
  have inj := inj_cell row (m := m) (n := n) (ld := ldd) hl
  cases row with
  | true =>
    have E : overBlocks true m n ldx ldy ldd L body = fun C => L.foldl (fun D t =>
        (fun t D => onPtr (t / blockCount n B * A * ldd + t % blockCount n B * B)
        (body (blockLen m A (t / blockCount n B)) (blockLen n B (t % blockCount n B))
          (t / blockCount n B * A * ldx) (t % blockCount n B * B * ldy)
          (t / blockCount n B * A) (t % blockCount n B * B)) D) t D) C := by
      rw [hA, hB]; rfl
    rw [E]
    refine Wr.grid pA pB hL inj fun a b ha hb => ?_
    have hb' : b < blockCount n B := by rw [blockCount_eq pB, lt_steps pB]; exact hb
    have b1 : (a * blockCount n B + b) / blockCount n B = a := by
      rw [Nat.mul_comm, Nat.mul_add_div (by omega), Nat.div_eq_of_lt hb', Nat.add_zero]
    have b2 : (a * blockCount n B + b) % blockCount n B = b := by
      rw [Nat.mul_comm, Nat.mul_add_mod, Nat.mod_eq_of_lt hb']
    simp only [b1, b2]
    have := onPtr_wr (off := a * A * ldd + b * B) (h (a * A) (b * B) _ _ ⟨a, Nat.mul_comm _ _⟩
      ⟨b, Nat.mul_comm _ _⟩ ha hb (blockLen_eq pA ha) (blockLen_eq pB hb))
    refine this.congr (fun _ => rfl) (fun r s _ => ?_) (fun r s => ?_) fun _ _ _ _ => rfl
    · simp only [cell, if_true]; rw [Nat.add_mul]; omega
    · rw [blockLen_eq pA ha, blockLen_eq pB hb]
  | false =>
    have E : overBlocks false m n ldx ldy ldd L body = fun C => L.foldl (fun D t =>
        (fun t D => onPtr (t / blockCount m A * B * ldd + t % blockCount m A * A)
        (body (blockLen m A (t % blockCount m A)) (blockLen n B (t / blockCount m A))
          (t % blockCount m A * A) (t / blockCount m A * B)
          (t % blockCount m A * A) (t / blockCount m A * B)) D) t D) C := by
      rw [hA, hB]; rfl
    rw [E]
    have sw : ∀ {f : (Nat → K) → Nat → K} {idx : Nat → Nat → Nat} {Dom : Nat → Nat → Prop}
        {G : Nat → Nat → K → K}, Wr f (fun j i => idx i j) (fun j i => Dom i j) (fun j i => G i j) →
        Wr f idx Dom G := fun h C => ⟨fun i j d => (h C).1 j i d, fun c hc => (h C).2 c fun j i d =>
          hc i j d⟩
    refine sw ?_
    refine (Wr.grid (m := n) (n := m) (idx := fun j i => cell false ldd i j) (G := fun j i => G i j)
      pB pA (by rw [Nat.mul_comm]; exact hL)
      (fun j i j' i' d d' e => (inj i j i' j' d.symm d'.symm e).symm)
      fun b a hb ha => ?_).congr (fun _ => rfl) (fun _ _ _ => rfl) (fun _ _ => and_comm)
      fun _ _ _ _ => rfl
    have ha' : a < blockCount m A := by rw [blockCount_eq pA, lt_steps pA]; exact ha
    have b1 : (b * blockCount m A + a) / blockCount m A = b := by
      rw [Nat.mul_comm, Nat.mul_add_div (by omega), Nat.div_eq_of_lt ha', Nat.add_zero]
    have b2 : (b * blockCount m A + a) % blockCount m A = a := by
      rw [Nat.mul_comm, Nat.mul_add_mod, Nat.mod_eq_of_lt ha']
    simp only [b1, b2]
    have := onPtr_wr (off := b * B * ldd + a * A) (h (a * A) (b * B) _ _ ⟨a, Nat.mul_comm _ _⟩
      ⟨b, Nat.mul_comm _ _⟩ ha hb (blockLen_eq pA ha) (blockLen_eq pB hb))
    refine sw (this.congr (fun _ => rfl) (fun r s _ => ?_) (fun r s => ?_) fun _ _ _ _ => rfl)
    · simp only [cell, Bool.false_eq_true, if_false]; rw [Nat.add_mul]; omega
    · rw [blockLen_eq pA ha, blockLen_eq pB hb]; exact and_comm

/-- The scalar loops: `first` is the number of columns by rows, of rows by columns. -/
theorem scalarLoops_wr {first second ldd : Nat} (hl : first ≤ ldd) (f : Nat → Nat → K → K) :
    Wr (fun D => scalarLoops first second D ldd f) (fun j i => i * ldd + j)
      (fun j i => j < first ∧ i < second) fun j i => f i j :=
  PairDist.Wr.rect (idx := fun j i => i * ldd + j) (G := fun j i => f i j) (by
    have := PairDist.inj_cols (co := 0) (m := first) (n := second) hl
    simpa using this)

theorem simdLoops_wr {w first second ldd : Nat} (hw : 0 < w) (hl : first ≤ ldd)
    {vec rest f : Nat → Nat → K → K} (hv : ∀ i j v, vec i j v = f i j v)
    (hr : ∀ i j v, rest i j v = f i j v) :
    Wr (fun D => simdLoops w first second D ldd vec rest) (fun j i => i * ldd + j)
      (fun j i => j < first ∧ i < second) fun j i => f i j := by
  have inj : Inj (fun j i => i * ldd + j) fun j i => j < first ∧ i < second := by
    have := PairDist.inj_cols (co := 0) (m := first) (n := second) hl
    simpa using this
  obtain ⟨q, hq⟩ : ∃ q, q = first / w := ⟨_, rfl⟩
  obtain ⟨e, he⟩ : ∃ e, e = first % w := ⟨_, rfl⟩
  have hf : first = q * w + e := by
    rw [hq, he, Nat.mul_comm]; exact (Nat.div_add_mod first w).symm
  have hsz : first - first % w = q * w := by omega
  have hqw : q * w / w = q := Nat.mul_div_cancel _ hw
  have col : ∀ i, i < second → Wr (fun D =>
      loop e (loop q D fun b D => loop w D fun lane D =>
        upd D (b * w + lane + i * ldd) (vec i (b * w + lane) (D (b * w + lane + i * ldd)))) fun j D =>
      upd D (i * ldd + q * w + j) (rest i (j + q * w) (D (i * ldd + q * w + j))))
      (fun j i => i * ldd + j) (fun j i' => i' = i ∧ j < first) fun j i => f i j := by
    intro i hi
    have W1 := PairDist.Wr.rect (m := w) (n := q) (idx := fun lane b => b * w + lane + i * ldd)
      (G := fun lane b v => vec i (b * w + lane) v) (by
        intro l b l' b' d d' ee
        have := Verif.Logistic.cell_inj (ns := w) (k := b) (k' := b') (i := l) (i' := l') d.1 d'.1
          (by simp only at ee; omega)
        exact ⟨this.2, this.1⟩)
    have W2 := PairDist.Wr.column (m := e) (j0 := 0) (idx := fun j _ => i * ldd + q * w + j)
      (G := fun j _ v => rest i (j + q * w) v) (fun a b _ _ ee => by omega)
    intro D
    obtain ⟨D1, hD1⟩ : ∃ D1, D1 = loop q D fun b D => loop w D fun lane D =>
        upd D (b * w + lane + i * ldd) (vec i (b * w + lane) (D (b * w + lane + i * ldd))) :=
      ⟨_, rfl⟩
    have V1 := W1 D
    simp only at V1
    rw [← hD1] at V1
    have V2 := W2 D1
    simp only at V2
    simp only [← hD1]
    refine ⟨fun j i' d => ?_, fun c hc => ?_⟩
    · obtain ⟨rfl, d⟩ := d
      by_cases hj : j < q * w
      · have a1 := Nat.div_add_mod j w
        rw [Nat.mul_comm] at a1
        have a2 := Nat.mod_lt j hw
        have a3 : j / w < q := (Nat.div_lt_iff_lt_mul hw).2 hj
        have z := V1.1 (j % w) (j / w) ⟨a2, a3⟩
        rw [a1, Nat.add_comm j] at z
        rw [V2.2 _ fun t _ dd => by omega, z, hv]
      · have z := V2.1 (j - q * w) 0 ⟨rfl, by omega⟩
        rw [show i' * ldd + q * w + (j - q * w) = i' * ldd + j by omega,
          show j - q * w + q * w = j by omega] at z
        rw [z, hr]
        congr 1
        refine V1.2 _ fun l b dd => ?_
        have : b * w + w ≤ q * w := by
          have := Nat.mul_le_mul_right w (show b + 1 ≤ q by omega)
          rw [Nat.add_mul] at this; omega
        omega
    · rw [V2.2 c fun t _ dd => ?_, V1.2 c fun l b dd => ?_]
      · have : b * w + w ≤ q * w := by
          have := Nat.mul_le_mul_right w (show b + 1 ≤ q by omega)
          rw [Nat.add_mul] at this; omega
        have := hc (b * w + l) i ⟨rfl, by omega⟩
        omega
      · have := hc (q * w + t) i ⟨rfl, by omega⟩
        omega
  have := PairDist.Wr.fold (L := List.range second) List.nodup_range (f := fun i D =>
      loop e (loop q D fun b D => loop w D fun lane D =>
        upd D (b * w + lane + i * ldd) (vec i (b * w + lane) (D (b * w + lane + i * ldd)))) fun j D =>
      upd D (i * ldd + q * w + j) (rest i (j + q * w) (D (i * ldd + q * w + j)))) inj
    (fun i hi => col i (List.mem_range.1 hi)) (fun j i => by
      simp only [List.mem_range]
      constructor
      · exact fun d => ⟨i, d.2, rfl, d.1⟩
      · rintro ⟨t, ht, d⟩; omega) fun t t' j i _ _ d d' => d.1.symm.trans d'.1
  refine this.congr (fun D => ?_) (fun _ _ _ => rfl) (fun _ _ => Iff.rfl) fun _ _ _ _ => rfl
  unfold simdLoops
  simp only
  rw [hsz, hqw, loop_foldl, ← he]

/-- The entries by rows and columns. -/
theorem byOrder {row : Bool} {m n ldd : Nat} {f : (Nat → K) → Nat → K} {g : Nat → Nat → K → K}
    (h : Wr f (fun j i => i * ldd + j)
      (fun j i => j < (if row then n else m) ∧ i < (if row then m else n)) fun j i => g i j) :
    Wr f (cell row ldd) (fun i j => i < m ∧ j < n) fun i j => if row then g i j else g j i := by
  cases row with
  | true =>
    intro C
    exact ⟨fun i j d => by simpa [cell] using (h C).1 j i ⟨d.2, d.1⟩, fun c hc => (h C).2 c
      fun j i d => by simpa [cell] using hc i j ⟨d.2, d.1⟩⟩
  | false =>
    intro C
    exact ⟨fun i j d => by simpa [cell] using (h C).1 i j ⟨d.1, d.2⟩, fun c hc => (h C).2 c
      fun j i d => by simpa [cell] using hc j i ⟨d.1, d.2⟩⟩

theorem fillUpper_at (row : Bool) {m ldd : Nat} (hl : m ≤ ldd) (D : Nat → K) :
    (∀ i j, i < m → j < m → fillUpper row m D ldd (cell row ldd i j) =
      if j < i then D (cell row ldd j i) else D (cell row ldd i j)) ∧
    ∀ c, (∀ i j, i < m → j < m → c ≠ cell row ldd i j) → fillUpper row m D ldd c = D c := by
  have inj := (inj_cell row (m := m) (n := m) (ld := ldd) (by cases row <;> simpa using hl))
  have E : fillUpper row m D ldd = loop m D fun i E => loop (m - (i + 1)) E fun t E =>
      upd E (cell row ldd (i + 1 + t) i) (E (cell row ldd i (i + 1 + t))) := by
    unfold fillUpper
    cases row
    · simp only [cell, Bool.not_false, if_true, Bool.false_eq_true, if_false,
        Nat.add_comm (_ * ldd)]
    · simp only [cell, Bool.not_true, if_true, Bool.false_eq_true, if_false]
  have key : (loop m D fun i E => loop (m - (i + 1)) E fun t E =>
      upd E (cell row ldd (i + 1 + t) i) (E (cell row ldd i (i + 1 + t)))) =
      loop m D fun i E => loop (m - (i + 1)) E fun t E =>
      upd E (cell row ldd (i + 1 + t) i) (D (cell row ldd i (i + 1 + t))) := by
    have step : ∀ i t (E : Nat → K), i < m → t < m - (i + 1) →
        (∀ a b, a ≤ b → b < m → E (cell row ldd a b) = D (cell row ldd a b)) →
        ∀ a b, a ≤ b → b < m → (upd E (cell row ldd (i + 1 + t) i) (D (cell row ldd i (i + 1 + t))))
          (cell row ldd a b) = D (cell row ldd a b) := by
      intro i t E hi ht hE a b hab hb
      rw [upd_ne, hE a b hab hb]
      intro e
      have := inj a b (i + 1 + t) i ⟨by omega, hb⟩ ⟨by omega, hi⟩ e
      omega
    refine loop_congr_inv (fun _ E => ∀ a b, a ≤ b → b < m →
      E (cell row ldd a b) = D (cell row ldd a b)) _ _ _ _ (fun _ _ _ _ => rfl) (fun i E hi hE => ?_)
      fun i E hi hE => ?_
    · exact loop_inv (fun _ E => ∀ a b, a ≤ b → b < m →
        E (cell row ldd a b) = D (cell row ldd a b)) _ _ _ hE fun j E hj hE => step i j E hi hj hE
    · refine loop_congr_inv (fun _ E => ∀ a b, a ≤ b → b < m →
        E (cell row ldd a b) = D (cell row ldd a b)) _ _ _ _ hE
        (fun j E hj hE => step i j E hi hj hE) fun j E hj hE => ?_
      rw [hE i (i + 1 + j) (by omega) (by omega)]
  rw [E, key]
  have W := PairDist.Wr.nest (n := m) (b := fun i => m - (i + 1))
    (idx := fun t i => cell row ldd (i + 1 + t) i)
    (h := fun t i E => upd E (cell row ldd (i + 1 + t) i) (D (cell row ldd i (i + 1 + t))))
    (G := fun t i _ => D (cell row ldd i (i + 1 + t)))
    (fun t i t' i' d d' e => by
      have := inj _ _ _ _ ⟨by omega, by omega⟩ ⟨by omega, by omega⟩ e
      omega)
    (fun t i E _ _ => upd_same _ _ _) (fun t i E c _ _ hc => upd_ne _ _ hc) D
  refine ⟨fun i j hi hj => ?_, fun c hc => W.2 c fun t i d => hc _ _ (by omega) (by omega)⟩
  by_cases h : j < i
  · rw [if_pos h]
    have := W.1 (i - j - 1) j ⟨hj, by omega⟩
    simp only at this
    rw [show j + 1 + (i - j - 1) = i by omega] at this
    exact this
  · rw [if_neg h]
    refine W.2 _ fun t a d e => ?_
    have := inj _ _ _ _ ⟨hi, hj⟩ ⟨by omega, by omega⟩ e
    omega

/-- A larger domain: the rest stays as it is. -/
theorem Wr.widen {f : (Nat → K) → Nat → K} {idx : Nat → Nat → Nat} {Dom Dom' : Nat → Nat → Prop}
    [∀ i j, Decidable (Dom i j)] {G : Nat → Nat → K → K} (h : Wr f idx Dom G) (hi : Inj idx Dom')
    (hd : ∀ i j, Dom i j → Dom' i j) :
    Wr f idx Dom' fun i j v => if Dom i j then G i j v else v := by
  intro C
  refine ⟨fun i j d => ?_, fun c hc => (h C).2 c fun i j d => hc i j (hd i j d)⟩
  simp only
  by_cases hD : Dom i j
  · rw [if_pos hD]; exact (h C).1 i j hD
  · rw [if_neg hD]
    refine (h C).2 _ fun a b d' e => hD ?_
    obtain ⟨rfl, rfl⟩ := hi i j a b d (hd a b d') e
    exact d'

end

end Verif.KernelFn
