import Verif.Moments.SumProof

/-
`sum_axis_misaligned`: the blocks are added into the right cells of the right arrays,
and the tree reduction leaves the total in the caller's array and frees the others.
-/
namespace Verif.Moments

set_option linter.unusedSectionVars false

open Finset

variable {A W : Type} [AddCommMonoid W]

/-- `s` with `f j` added to cell `so + j` for `j < n`. -/
def addWin (s : List W) (so n : Nat) (f : Nat → W) : List W :=
  s.mapIdx fun k a => if so ≤ k ∧ k < so + n then a + f (k - so) else a

theorem addWin_length (s : List W) (so n : Nat) (f : Nat → W) :
    (addWin s so n f).length = s.length := by simp [addWin]

theorem addWin_get (s : List W) (so n : Nat) (f : Nat → W) (k : Nat) :
    (addWin s so n f)[k]? =
      (s[k]?).map (fun a => if so ≤ k ∧ k < so + n then a + f (k - so) else a) := by
  simp [addWin, List.getElem?_mapIdx]

theorem addWin_zero (s : List W) (so : Nat) (f : Nat → W) : addWin s so 0 f = s := by
  apply List.ext_getElem?
  intro k
  rw [addWin_get]
  have : ¬ (so ≤ k ∧ k < so + 0) := by omega
  simp only [if_neg this]
  simp

theorem addWin_none (s : List W) (so n : Nat) : addWin s so n (fun _ => 0) = s := by
  apply List.ext_getElem?
  intro k
  rw [addWin_get]
  simp

theorem addWin_add (s : List W) (so n : Nat) (f g : Nat → W) :
    addWin (addWin s so n f) so n g = addWin s so n (fun j => f j + g j) := by
  apply List.ext_getElem?
  intro k
  rw [addWin_get, addWin_get, addWin_get, Option.map_map]
  congr 1
  funext a
  by_cases h : so ≤ k ∧ k < so + n
  · simp [h, add_assoc]
  · simp [h]

theorem addLoop (f : Nat → W) (so n : Nat) (body : Nat → List W → M (List W)) (s : List W)
    (hb : ∀ j < n, ∀ s, body j s = addAt s (so + j) (f j)) (hl : so + n ≤ s.length) :
    forUp n body s = .ok (addWin s so n f) := by
  induction n with
  | zero => rw [forUp_zero, addWin_zero]
  | succ n ih =>
    rw [forUp_succ, ih (fun j hj => hb j (by omega)) (by omega), ok_bind,
      hb n (Nat.lt_succ_self n)]
    have hk : so + n < s.length := by omega
    have h1 : (addWin s so n f)[so + n]? = some s[so + n] := by
      rw [addWin_get, List.getElem?_eq_getElem hk]
      simp
    rw [addAt_ok _ h1]
    congr 1
    apply List.ext_getElem?
    intro k
    rw [List.getElem?_set, addWin_get, addWin_get, addWin_length, if_pos hk]
    by_cases hkn : so + n = k
    · subst hkn
      rw [if_pos rfl, List.getElem?_eq_getElem hk]
      simp
    · rw [if_neg hkn]
      congr 1
      funext a
      by_cases h : so ≤ k ∧ k < so + n
      · rw [if_pos h, if_pos (by omega)]
      · rw [if_neg h, if_neg (by omega)]

/-- The value of entry `k` of the buffer for column `j` of the window. -/
def valAt (S : Kern A W) (x : List A) (p : Option (List A)) (k j : Nat) : M W := do
  let a ← rd x k
  let q ← match S with
    | .one _ => .ok none
    | .two _ => paramAt p j
  S.app q a

theorem vecLeaf_ok (S : Kern A W) (x : List A) (p : Option (List A))
    (po inner ldx chunk base so : Nat) (s : List W) (w : Nat → Nat → W)
    (hl : so + inner ≤ s.length)
    (hv : ∀ i < chunk, ∀ j < inner, valAt S x p (base + ldx * i + j) (po + j) = .ok (w i j)) :
    vecLeaf S x p po inner ldx chunk base so s =
      .ok (addWin s so inner (fun j => ∑ i ∈ range chunk, w i j)) := by
  induction chunk with
  | zero => simp only [vecLeaf, forUp_zero, range_zero, sum_empty]; rw [addWin_none]
  | succ n ih =>
    have ih' := ih (fun i hi => hv i (by omega))
    unfold vecLeaf at ih' ⊢
    rw [forUp_succ, ih', ok_bind, addLoop (w n) so inner _ _ _ (by rw [addWin_length]; exact hl),
      addWin_add]
    · congr 2
      funext j
      rw [sum_range_succ]
    · intro j hj s
      have h1 := hv n (Nat.lt_succ_self n) j hj
      unfold valAt at h1
      cases hr : rd x (base + ldx * n + j) with
      | error e => rw [hr] at h1; exact absurd h1 (by simp [bind, Except.bind])
      | ok a =>
        rw [hr, ok_bind] at h1
        rw [ok_bind]
        cases S with
        | one f =>
          simp only [ok_bind] at h1 ⊢
          rw [h1, ok_bind]
        | two f =>
          simp only at h1 ⊢
          cases hp : paramAt p (po + j) with
          | error e => rw [hp] at h1; exact absurd h1 (by simp [bind, Except.bind])
          | ok q =>
            rw [hp, ok_bind] at h1
            rw [ok_bind, h1, ok_bind]

theorem recVec_ok (thr : Nat) (S : Kern A W) (x : List A) (p : Option (List A))
    (po inner ldx : Nat) (ht : 0 < thr) :
    ∀ (fuel chunk base : Nat) (dst : Option (List W × Nat)) (w : Nat → Nat → W),
      chunk < fuel →
      (∀ d, dst = some d → d.2 + inner ≤ d.1.length) →
      (∀ i < chunk, ∀ j < inner,
        valAt S x p (base + ldx * i + j) (po + j) = .ok (w i j)) →
      recVec thr S x p po inner ldx fuel chunk base dst =
        .ok (addWin (dst.getD (List.replicate inner 0, 0)).1
          (dst.getD (List.replicate inner 0, 0)).2 inner (fun j => ∑ i ∈ range chunk, w i j),
          (dst.getD (List.replicate inner 0, 0)).2) := by
  intro fuel
  induction fuel with
  | zero => intro chunk base dst w hf; omega
  | succ fuel ih =>
    intro chunk base dst w hf hd hv
    have hlen : (dst.getD (List.replicate inner 0, 0)).2 + inner ≤
        (dst.getD (List.replicate inner 0, 0)).1.length := by
      cases dst with
      | none => simp
      | some d => exact hd d rfl
    unfold recVec
    by_cases hc : chunk ≤ thr
    · rw [if_pos hc]
      simp only
      rw [vecLeaf_ok S x p po inner ldx chunk base _ _ w hlen hv, ok_bind]
    · rw [if_neg hc, ih (chunk / 2) base dst w (by omega) hd (fun i hi => hv i (by omega)),
        ok_bind, ih (chunk - chunk / 2) (base + chunk / 2 * ldx) none
          (fun i j => w (chunk / 2 + i) j) (by omega) (by intro d h; cases h) (by
            intro i hi j hj
            have h1 := hv (chunk / 2 + i) (by omega) j hj
            rw [← h1]
            congr 1
            rw [Nat.mul_add, Nat.mul_comm ldx (chunk / 2)]; omega), ok_bind]
      obtain ⟨d, hd0⟩ : ∃ d, d = dst.getD ((List.replicate inner 0, 0) : List W × Nat) :=
        ⟨_, rfl⟩
      simp only [Option.getD_none, ← hd0] at hlen ⊢
      rw [addLoop (fun j => ∑ i ∈ range (chunk - chunk / 2), w (chunk / 2 + i) j) d.2 inner _ _ _
        (by rw [addWin_length]; exact hlen), ok_bind, addWin_add]
      · congr 3
        funext j
        have hs : chunk = chunk / 2 + (chunk - chunk / 2) := by omega
        conv_rhs => rw [hs, sum_range_add]
      · intro j hj s
        rw [rd_ok (a := ∑ i ∈ range (chunk - chunk / 2), w (chunk / 2 + i) j), ok_bind]
        rw [Nat.zero_add, addWin_get]
        have : j < (List.replicate inner (0 : W)).length := by simpa using hj
        rw [List.getElem?_eq_getElem this]
        simp [hj]

/-- What the arrays of `sum_axis_misaligned` hold: array `i` is live when `alive i`, has
`len i` cells, and cell `c` holds `F i c`. -/
structure Rep (nOuter : Nat) (len : Nat → Nat) (alive : Nat → Prop) (F : Nat → Nat → W)
    (ls : List (Option (List W))) : Prop where
  length : ls.length = nOuter
  live : ∀ i < nOuter, alive i →
    ∃ arr, ls[i]? = some (some arr) ∧ arr.length = len i ∧ ∀ c < len i, arr[c]? = some (F i c)
  dead : ∀ i < nOuter, ¬ alive i → ls[i]? = some none

theorem Rep.congr {nOuter : Nat} {len : Nat → Nat} {al al' : Nat → Prop} {F F' : Nat → Nat → W}
    {ls : List (Option (List W))} (h : Rep nOuter len al F ls)
    (ha : ∀ i < nOuter, al i ↔ al' i)
    (hF : ∀ i < nOuter, al' i → ∀ c < len i, F i c = F' i c) :
    Rep nOuter len al' F' ls where
  length := h.length
  live i hi hal := by
    obtain ⟨arr, h1, h2, h3⟩ := h.live i hi ((ha i hi).2 hal)
    exact ⟨arr, h1, h2, fun c hc => by rw [h3 c hc, hF i hi hal c hc]⟩
  dead i hi hal := h.dead i hi (fun h' => hal ((ha i hi).1 h'))

theorem block_ok (thr : Nat) (S : Kern A W) (pl : Plan) {outer inner ldx : Nat} (x : List A)
    (p : Option (List A)) (ht : 0 < thr) (i j cur rows : Nat) (len : Nat → Nat)
    (F : Nat → Nat → W) (ls : List (Option (List W))) (w : Nat → Nat → W)
    (hi : i < pl.nOuter) (hlen : inner ≤ len i)
    (hcur : cur = if j = pl.nInner - 1 then inner - j * pl.innerSize else pl.innerSize)
    (hrows : rows = if i = pl.nOuter - 1 then outer - i * pl.outerSize else pl.outerSize)
    (hcin : j * pl.innerSize + cur ≤ inner) (hrin : i * pl.outerSize + rows ≤ outer)
    (hv : ∀ o < outer, ∀ c < inner, valAt S x p (o * ldx + c) c = .ok (w o c))
    (h : Rep pl.nOuter len (fun _ => True) F ls) :
    ∃ ls', block thr S pl outer inner x ldx p (i, j) ls = .ok ls' ∧
      Rep pl.nOuter len (fun _ => True)
        (fun i' c => F i' c + if i' = i ∧ j * pl.innerSize ≤ c ∧ c < j * pl.innerSize + cur
          then ∑ r ∈ range rows, w (i * pl.outerSize + r) c else 0) ls' := by
  obtain ⟨arr, h1, h2, h3⟩ := h.live i hi trivial
  unfold block
  simp only
  rw [← hcur, ← hrows, rd_ok h1, ok_bind]
  simp only
  rw [recVec_ok thr S x p (j * pl.innerSize) cur ldx ht (rows + 1) rows _
    (some (arr, j * pl.innerSize))
    (fun r c => w (i * pl.outerSize + r) (j * pl.innerSize + c)) (Nat.lt_succ_self _) (by
      intro d hd
      cases hd
      simp only
      omega) (by
      intro r hr c hc
      have h4 := hv (i * pl.outerSize + r) (by omega) (j * pl.innerSize + c) (by omega)
      rw [← h4]
      congr 1
      ring), ok_bind]
  have hil : i < ls.length := by rw [h.length]; exact hi
  rw [wr_ok _ hil]
  refine ⟨_, rfl, ?_⟩
  simp only [Option.getD_some]
  constructor
  · rw [List.length_set]; exact h.length
  · intro k hk _
    by_cases hki : i = k
    · subst hki
      refine ⟨_, by rw [List.getElem?_set, if_pos rfl, if_pos hil], by rw [addWin_length, h2], ?_⟩
      intro c hc
      rw [addWin_get, h3 c hc, Option.map_some]
      by_cases hw : j * pl.innerSize ≤ c ∧ c < j * pl.innerSize + cur
      · rw [if_pos hw, if_pos ⟨rfl, hw⟩]
        congr 2
        apply sum_congr rfl
        intro r _
        congr 1
        omega
      · rw [if_neg hw, if_neg (fun h => hw h.2), add_zero]
    · obtain ⟨arr', g1, g2, g3⟩ := h.live k hk trivial
      refine ⟨arr', by rw [List.getElem?_set, if_neg hki, g1], g2, ?_⟩
      intro c hc
      rw [g3 c hc, if_neg (fun h => hki h.1.symm), add_zero]
  · intro k _ hk; exact absurd trivial hk

/-- All blocks, in any order. -/
theorem blocks_ok (thr : Nat) (S : Kern A W) (pl : Plan) {outer inner ldx : Nat} (x : List A)
    (p : Option (List A)) (ht : 0 < thr) (len : Nat → Nat) (w : Nat → Nat → W)
    (cur rows : Nat → Nat)
    (hlen : ∀ i < pl.nOuter, inner ≤ len i)
    (hcur : ∀ j, cur j = if j = pl.nInner - 1 then inner - j * pl.innerSize else pl.innerSize)
    (hrows : ∀ i, rows i = if i = pl.nOuter - 1 then outer - i * pl.outerSize else pl.outerSize)
    (hcin : ∀ j < pl.nInner, j * pl.innerSize + cur j ≤ inner)
    (hrin : ∀ i < pl.nOuter, i * pl.outerSize + rows i ≤ outer)
    (hv : ∀ o < outer, ∀ c < inner, valAt S x p (o * ldx + c) c = .ok (w o c)) :
    ∀ (bs : List (Nat × Nat)) (F : Nat → Nat → W) (ls : List (Option (List W))),
      (∀ b ∈ bs, b.1 < pl.nOuter ∧ b.2 < pl.nInner) →
      Rep pl.nOuter len (fun _ => True) F ls →
      ∃ ls', bs.foldlM (fun ls ij => block thr S pl outer inner x ldx p ij ls) ls = .ok ls' ∧
        Rep pl.nOuter len (fun _ => True)
          (fun i c => F i c + (bs.map fun b =>
            if i = b.1 ∧ b.2 * pl.innerSize ≤ c ∧ c < b.2 * pl.innerSize + cur b.2
              then ∑ r ∈ range (rows i), w (i * pl.outerSize + r) c else 0).sum) ls' := by
  intro bs
  induction bs with
  | nil => intro F ls _ h; exact ⟨ls, rfl, by simpa using h⟩
  | cons b bs ih =>
    intro F ls hb h
    obtain ⟨h1, h2⟩ := hb b (by simp)
    obtain ⟨ls1, e1, r1⟩ := block_ok thr S pl x p ht b.1 b.2 (cur b.2) (rows b.1) len F ls w h1
      (hlen _ h1) (hcur _) (hrows _) (hcin _ h2) (hrin _ h1) hv h
    obtain ⟨ls2, e2, r2⟩ := ih _ ls1 (fun b' hb' => hb b' (by simp [hb'])) r1
    refine ⟨ls2, ?_, ?_⟩
    · rw [List.foldlM_cons, e1, ok_bind, e2]
    · refine r2.congr (fun _ _ => Iff.rfl) ?_
      intro i _ _ c _
      rw [List.map_cons, List.sum_cons, ← add_assoc]
      congr 2
      by_cases hi : i = b.1
      · rw [hi]
      · rw [if_neg (fun h => hi h.1), if_neg (fun h => hi h.1)]

/-- One merge. -/
theorem merge_ok {nOuter inner stride dst : Nat} (len : Nat → Nat) (al : Nat → Prop)
    (F : Nat → Nat → W) (ls : List (Option (List W))) (hd : dst < nOuter) (hal : al dst)
    (hals : dst + stride < nOuter → al (dst + stride))
    (hlen : ∀ i < nOuter, inner ≤ len i) (h : Rep nOuter len al F ls) :
    ∃ ls', merge nOuter inner stride dst ls = .ok ls' ∧
      Rep nOuter len (fun i => al i ∧ i ≠ dst + stride)
        (fun i c => if i = dst ∧ c < inner ∧ dst + stride < nOuter
          then F i c + F (dst + stride) c else F i c) ls' := by
  unfold merge
  simp only
  by_cases hsrc : dst + stride < nOuter
  · rw [if_pos hsrc]
    obtain ⟨a, a1, a2, a3⟩ := h.live dst hd hal
    obtain ⟨b, b1, b2, b3⟩ := h.live _ hsrc (hals hsrc)
    rw [rd_ok a1, ok_bind, rd_ok b1, ok_bind]
    simp only
    have hla : inner ≤ a.length := by rw [a2]; exact hlen _ hd
    rw [addLoop (F (dst + stride)) 0 inner _ a (by
      intro k hk s
      rw [rd_ok (b3 k (by have := hlen _ hsrc; omega)), ok_bind, Nat.zero_add]) (by omega),
      ok_bind]
    have hdl : dst < ls.length := by rw [h.length]; exact hd
    have hsl : dst + stride < ls.length := by rw [h.length]; exact hsrc
    rw [wr_ok _ hdl, ok_bind, wr_ok _ (by rw [List.length_set]; exact hsl)]
    refine ⟨_, rfl, ?_⟩
    constructor
    · rw [List.length_set, List.length_set]; exact h.length
    · intro i hi hai
      rw [List.getElem?_set, if_neg (Ne.symm hai.2), List.getElem?_set]
      by_cases hid : dst = i
      · subst hid
        refine ⟨_, by rw [if_pos rfl, if_pos hdl], by rw [addWin_length, a2], ?_⟩
        intro c hc
        rw [addWin_get, a3 c hc, Option.map_some]
        by_cases hci : c < inner
        · rw [if_pos (by omega), if_pos ⟨rfl, hci, hsrc⟩, Nat.sub_zero]
        · rw [if_neg (by omega), if_neg (fun h => hci h.2.1)]
      · obtain ⟨arr, c1, c2, c3⟩ := h.live i hi hai.1
        refine ⟨arr, by rw [if_neg hid]; exact c1, c2, ?_⟩
        intro c hc
        rw [c3 c hc, if_neg (fun h => hid h.1.symm)]
    · intro i hi hai
      rw [List.getElem?_set, List.length_set]
      by_cases his : dst + stride = i
      · rw [if_pos his, if_pos hsl]
      · rw [if_neg his, List.getElem?_set]
        have hna : ¬ al i := fun h' => hai ⟨h', fun h'' => his h''.symm⟩
        have hne : dst ≠ i := fun h' => hna (h' ▸ hal)
        rw [if_neg hne]
        exact h.dead i hi hna
  · rw [if_neg hsrc]
    refine ⟨ls, rfl, h.congr ?_ ?_⟩
    · intro i hi
      constructor
      · intro h'; exact ⟨h', by omega⟩
      · exact fun h' => h'.1
    · intro i hi _ c _
      rw [if_neg (fun h => hsrc h.2.2)]

/-- One level of the reduction, in any order. -/
theorem level_ok {nOuter inner stride : Nat} (len : Nat → Nat) (hs : 0 < stride)
    (hlen : ∀ i < nOuter, inner ≤ len i) :
    ∀ (ord : List Nat) (al : Nat → Prop) (F : Nat → Nat → W) (ls : List (Option (List W))),
      ord.Nodup → (∀ d ∈ ord, d < nOuter ∧ d % (2 * stride) = 0) →
      (∀ d ∈ ord, al d ∧ (d + stride < nOuter → al (d + stride))) →
      Rep nOuter len al F ls →
      ∃ ls', ord.foldlM (fun ls dst => merge nOuter inner stride dst ls) ls = .ok ls' ∧
        Rep nOuter len (fun i => al i ∧ ∀ d ∈ ord, i ≠ d + stride)
          (fun i c => if i ∈ ord ∧ c < inner ∧ i + stride < nOuter
            then F i c + F (i + stride) c else F i c) ls' := by
  intro ord
  induction ord with
  | nil => intro al F ls _ _ _ h; exact ⟨ls, rfl, by simpa using h⟩
  | cons d ord ih =>
    intro al F ls hnd hm hal h
    obtain ⟨hd1, hd2⟩ := List.nodup_cons.1 hnd
    have hdm := hm d (by simp)
    obtain ⟨ls1, e1, r1⟩ := merge_ok len al F ls hdm.1 (hal d (by simp)).1
      (hal d (by simp)).2 hlen h
    have hne : ∀ d' ∈ ord, d' ≠ d + stride ∧ d' + stride ≠ d + stride ∧ d' + stride ≠ d := by
      intro d' hd'
      have h1 := (hm d' (by simp [hd'])).2
      have h2 := hdm.2
      obtain ⟨a, ha⟩ := Nat.dvd_of_mod_eq_zero h1
      obtain ⟨b, hb⟩ := Nat.dvd_of_mod_eq_zero h2
      refine ⟨?_, ?_, ?_⟩
      · intro h3
        rw [ha, hb] at h3
        have : stride * (2 * a) = stride * (2 * b + 1) := by
          rw [Nat.mul_add, Nat.mul_one]
          have e1 : stride * (2 * a) = 2 * stride * a := by ring
          have e2 : stride * (2 * b) = 2 * stride * b := by ring
          omega
        have := Nat.eq_of_mul_eq_mul_left hs this
        omega
      · intro h3
        have : d' = d := by omega
        exact hd1 (this ▸ hd')
      · intro h3
        rw [ha, hb] at h3
        have : stride * (2 * a + 1) = stride * (2 * b) := by
          rw [Nat.mul_add, Nat.mul_one]
          have e1 : stride * (2 * a) = 2 * stride * a := by ring
          have e2 : stride * (2 * b) = 2 * stride * b := by ring
          omega
        have := Nat.eq_of_mul_eq_mul_left hs this
        omega
    obtain ⟨ls2, e2, r2⟩ := ih _ _ ls1 hd2 (fun d' hd' => hm d' (by simp [hd'])) (by
      intro d' hd'
      obtain ⟨n1, n2, _⟩ := hne d' hd'
      exact ⟨⟨(hal d' (by simp [hd'])).1, n1⟩,
        fun h' => ⟨(hal d' (by simp [hd'])).2 h', n2⟩⟩) r1
    refine ⟨ls2, by rw [List.foldlM_cons, e1, ok_bind, e2], r2.congr ?_ ?_⟩
    · intro i _
      simp only [List.mem_cons, forall_eq_or_imp, and_assoc]
    · intro i _ _ c _
      by_cases hid : i = d
      · subst hid
        rw [if_neg (fun h => hd1 h.1)]
        by_cases hc : c < inner ∧ i + stride < nOuter
        · rw [if_pos ⟨rfl, hc⟩, if_pos ⟨by simp, hc⟩]
        · rw [if_neg (fun h => hc h.2), if_neg (fun h => hc h.2)]
      · by_cases hio : i ∈ ord
        · obtain ⟨n1, n2, n3⟩ := hne i hio
          by_cases hc : c < inner ∧ i + stride < nOuter
          · rw [if_pos ⟨hio, hc⟩, if_neg (fun h => hid h.1), if_neg (fun h => n3 h.1),
              if_pos ⟨by simp [hio], hc⟩]
          · rw [if_neg (fun h => hc h.2), if_neg (fun h => hid h.1), if_neg (fun h => hc h.2)]
        · rw [if_neg (fun h => hio h.1), if_neg (fun h => hid h.1), if_neg]
          intro h
          have := h.1
          simp [hid, hio] at this

/-- The whole reduction. -/
theorem mergeAll_ok (e : Env) {nOuter inner : Nat} (len : Nat → Nat) (F0 : Nat → Nat → W)
    (h0 : 0 < nOuter) (hlen : ∀ i < nOuter, inner ≤ len i)
    (hlev : ∀ s, 0 < s → (e.level s).Perm
      ((List.range nOuter).filter (fun d => d % (2 * s) = 0))) :
    ∀ (fuel stride : Nat) (F : Nat → Nat → W) (ls : List (Option (List W))),
      0 < stride → 0 < fuel → nOuter < stride + fuel →
      Rep nOuter len (fun i => i % stride = 0) F ls →
      (∀ i < nOuter, i % stride = 0 → ∀ c < inner,
        F i c = ∑ k ∈ range (min stride (nOuter - i)), F0 (i + k) c) →
      (∀ c, inner ≤ c → F 0 c = F0 0 c) →
      ∃ ls' F', mergeAll e nOuter inner fuel stride ls = .ok ls' ∧
        Rep nOuter len (fun i => i = 0) F' ls' ∧
        (∀ c < inner, F' 0 c = ∑ k ∈ range nOuter, F0 k c) ∧
        (∀ c, inner ≤ c → F' 0 c = F0 0 c) := by
  intro fuel
  induction fuel with
  | zero =>
    intro stride F ls hs hf0 hf h hF hR
    omega
  | succ fuel ih =>
    intro stride F ls hs hf0 hf h hF hR
    unfold mergeAll
    by_cases hst : stride < nOuter
    · rw [if_pos hst]
      have hp := hlev stride hs
      have hmem : ∀ d, d ∈ e.level stride ↔ d < nOuter ∧ d % (2 * stride) = 0 := by
        intro d
        rw [hp.mem_iff, List.mem_filter, List.mem_range]
        simp
      have hdvd : ∀ d, d % (2 * stride) = 0 → d % stride = 0 := fun d hd =>
        Nat.mod_eq_zero_of_dvd (Nat.dvd_trans ⟨2, by ring⟩ (Nat.dvd_of_mod_eq_zero hd))
      obtain ⟨ls1, e1, r1⟩ := level_ok (inner := inner) len hs hlen (e.level stride) _ F ls
        (hp.nodup_iff.2 (List.nodup_range.filter _)) (fun d hd => (hmem d).1 hd) (by
          intro d hd
          have h1 := hdvd d ((hmem d).1 hd).2
          exact ⟨h1, fun _ => by rw [Nat.add_mod_right]; exact h1⟩) h
      rw [e1, ok_bind]
      have hiff : ∀ i < nOuter, (i % stride = 0 ∧ ∀ d ∈ e.level stride, i ≠ d + stride) ↔
          i % (2 * stride) = 0 := by
        intro i hi
        constructor
        · rintro ⟨h1, h2⟩
          obtain ⟨a, ha⟩ := Nat.dvd_of_mod_eq_zero h1
          rcases Nat.even_or_odd' a with ⟨b, hb | hb⟩
          · rw [ha, hb]
            apply Nat.mod_eq_zero_of_dvd
            exact ⟨b, by ring⟩
          · exfalso
            apply h2 (stride * (2 * b)) _ (by rw [ha, hb]; ring)
            rw [hmem]
            constructor
            · have : stride * (2 * b) ≤ stride * a := Nat.mul_le_mul_left _ (by omega)
              omega
            · apply Nat.mod_eq_zero_of_dvd
              exact ⟨b, by ring⟩
        · intro h1
          refine ⟨hdvd i h1, ?_⟩
          intro d hd h2
          have h3 := ((hmem d).1 hd).2
          rw [h2, Nat.add_mod, h3, Nat.zero_add, Nat.mod_mod, Nat.mod_eq_of_lt (by omega)] at h1
          omega
      refine ih (2 * stride) _ ls1 (by omega) (by omega) (by omega) (r1.congr hiff (fun _ _ _ _ _ => rfl))
        ?_ ?_
      · intro i hi hi2 c hc
        have h1 := hF i hi (hdvd i hi2) c hc
        by_cases hsrc : i + stride < nOuter
        · rw [if_pos ⟨(hmem i).2 ⟨hi, hi2⟩, hc, hsrc⟩, h1,
            hF (i + stride) hsrc (by rw [Nat.add_mod_right]; exact hdvd i hi2) c hc]
          have e1 : min (2 * stride) (nOuter - i) =
            min stride (nOuter - i) + min stride (nOuter - (i + stride)) := by omega
          rw [e1, sum_range_add]
          congr 1
          apply sum_congr rfl
          intro k _
          have : min stride (nOuter - i) = stride := by omega
          rw [this, Nat.add_assoc]
        · rw [if_neg (fun h => hsrc h.2.2), h1]
          have e1 : min (2 * stride) (nOuter - i) = min stride (nOuter - i) := by omega
          rw [e1]
      · intro c hc
        rw [if_neg (fun h => by have := h.2.1; omega), hR c hc]
    · rw [if_neg hst]
      refine ⟨ls, F, rfl, h.congr ?_ (fun _ _ _ _ _ => rfl), ?_, hR⟩
      · intro i hi
        rw [Nat.mod_eq_of_lt (by omega)]
      · intro c hc
        rw [hF 0 h0 (Nat.zero_mod _) c hc]
        have : min stride (nOuter - 0) = nOuter := by omega
        rw [this]
        simp

end Verif.Moments
