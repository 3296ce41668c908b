/- Helper lemmas for the parallel method: what holds in every interleaving. -/
import Verif.Dbscan.Proof
import Mathlib.Logic.Relation
namespace Verif.Dbscan

section
variable (n : Nat) (C : Nat → Prop) (adj : Nat → Nat → Prop)

/-- Iteration `i` stores into the label of `x`. -/
def Touch (i x : Nat) : Prop := C i ∧ (x = i ∨ adj i x)

/-- One of the two is a core sample that has the other as neighbour. -/
def Edge (a b : Nat) : Prop := (C a ∧ adj a b) ∨ (C b ∧ adj b a)

/-- Instruction of iteration `i` that may occur. -/
def InstrOk (i : Nat) : Instr → Prop
  | .read x => x < n
  | .dup a b => a < n ∧ b < a ∧ Edge C adj a b
  | .write x => x < n ∧ Touch C adj i x

/-- Every write is preceded by a read of the same label; `k` is the label last read. -/
def Syn : Option Nat → List Instr → Prop
  | _, [] => True
  | _, .read x :: r => Syn (some x) r
  | k, .dup _ _ :: r => Syn k r
  | k, .write x :: r => k = some x ∧ Syn k r

structure TaskOk (L : Nat → Int) (t : Nat) (k : Task) : Prop where
  num : k.i = t ∧ t < n
  instrs : ∀ c ∈ k.todo, InstrOk n C adj t c
  syn : ∃ o, Syn o k.todo ∧ ∀ x, o = some x → k.reg = -1 ∨ L x ≠ -1

structure PInv (s : PState) : Prop where
  len : s.labels.length = n
  lenD : s.dup.length = n
  label : ∀ x, x < n → lab s.labels x = -1 ∨ ∃ i : Nat, lab s.labels x = i ∧ i < n ∧ Touch C adj i x
  dups : ∀ a, a < n → lab s.dup a = -1 ∨ ∃ b : Nat, lab s.dup a = b ∧ b < a ∧ Edge C adj a b
  tasks : ∀ t k, s.tasks[t]? = some k → TaskOk n C adj (lab s.labels) t k
  lenT : s.tasks.length = n
  progress : ∀ i x, i < n → Touch C adj i x → lab s.labels x ≠ -1 ∨ ∃ k, s.tasks[i]? = some k ∧ .write x ∈ k.todo
end

variable {n : Nat} {C : Nat → Prop} {adj : Nat → Nat → Prop}

theorem TaskOk.mono {L L' : Nat → Int} {t k} (h : TaskOk n C adj L t k) (hm : ∀ x, L x ≠ -1 → L' x ≠ -1) :
    TaskOk n C adj L' t k := by
  obtain ⟨o, h1, h2⟩ := h.syn
  exact ⟨h.num, h.instrs, o, h1, fun x hx => (h2 x hx).imp_right (hm x)⟩

theorem pStep_inv {s s' : PState} {t : Nat} (h : PInv n C adj s) (hs : pStep s t = some s') : PInv n C adj s' := by
  unfold pStep at hs
  split at hs
  · cases hs
  · cases hs
  · rename_i i x rest reg hk
    have ht := h.tasks _ _ hk
    have htl : t < s.tasks.length := (List.getElem?_eq_some_iff.mp hk).1
    have hx : x < n := ht.instrs (.read x) (by simp)
    split at hs
    · rename_i l hl
      cases hs
      have hlx : lab s.labels x = l := by simp [lab, hl]
      refine { h with tasks := ?_, lenT := by simpa using h.lenT, progress := ?_ }
      · intro t' k hk'
        simp only [List.getElem?_set, htl, if_true] at hk'
        split at hk'
        · rename_i e; subst e
          cases hk'
          obtain ⟨o, h1, h2⟩ := ht.syn
          refine ⟨ht.num, fun c hc => ht.instrs c (by simp [hc]), some x, h1, ?_⟩
          intro y hy; cases hy
          by_cases e : l = -1
          · exact .inl e
          · right; rw [hlx]; exact e
        · exact h.tasks _ _ hk'
      · intro j y hj hty
        rcases h.progress j y hj hty with h1 | ⟨k, h1, h2⟩
        · exact .inl h1
        · right
          by_cases e : t = j
          · subst e
            rw [hk] at h1; cases h1
            exact ⟨_, List.getElem?_set_self htl, by simpa using h2⟩
          · exact ⟨k, by simp [e, h1], h2⟩
    · cases hs
  · rename_i i a b rest reg hk
    have ht := h.tasks _ _ hk
    have htl : t < s.tasks.length := (List.getElem?_eq_some_iff.mp hk).1
    obtain ⟨ha, hb, hab⟩ : a < n ∧ b < a ∧ Edge C adj a b := ht.instrs (.dup a b) (by simp)
    split at hs
    · cases hs
      refine { h with lenD := by simpa using h.lenD, dups := ?_, tasks := ?_, lenT := by simpa using h.lenT, progress := ?_ }
      · intro a' ha'
        simp only
        rw [lab_set _ _ _ _ (by rw [h.lenD]; exact ha)]
        split
        · rename_i e; subst e; exact .inr ⟨b, rfl, hb, hab⟩
        · exact h.dups a' ha'
      · intro t' k hk'
        simp only [List.getElem?_set, htl, if_true] at hk'
        split at hk'
        · rename_i e; subst e
          cases hk'
          obtain ⟨o, h1, h2⟩ := ht.syn
          exact ⟨ht.num, fun c hc => ht.instrs c (by simp [hc]), o, h1, h2⟩
        · exact h.tasks _ _ hk'
      · intro j y hj hty
        rcases h.progress j y hj hty with h1 | ⟨k, h1, h2⟩
        · exact .inl h1
        · right
          by_cases e : t = j
          · subst e
            rw [hk] at h1; cases h1
            exact ⟨_, List.getElem?_set_self htl, by simpa using h2⟩
          · exact ⟨k, by simp [e, h1], h2⟩
    · cases hs
  · rename_i i x rest reg hk
    have ht := h.tasks _ _ hk
    have htl : t < s.tasks.length := (List.getElem?_eq_some_iff.mp hk).1
    obtain ⟨hx, htx⟩ : x < n ∧ Touch C adj t x := ht.instrs (.write x) (by simp)
    have hit : i = t := ht.num.1
    obtain ⟨o, ⟨hox, hsyn⟩, hreg⟩ := ht.syn
    split at hs
    · split at hs
      · cases hs
        have hset : ∀ y, lab (s.labels.set x i) y = if y = x then (i : Int) else lab s.labels y :=
          fun y => lab_set _ _ _ _ (by rw [h.len]; exact hx)
        have hmono : ∀ y, lab s.labels y ≠ -1 → lab (s.labels.set x i) y ≠ -1 := by
          intro y hy; rw [hset]; split
          · omega
          · exact hy
        refine { h with len := by simpa using h.len, label := ?_, tasks := ?_, lenT := by simpa using h.lenT, progress := ?_ }
        · intro y hy
          simp only
          rw [hset]
          split
          · rename_i e; subst e; exact .inr ⟨i, rfl, hit ▸ ht.num.2, hit ▸ htx⟩
          · exact h.label y hy
        · intro t' k hk'
          simp only [List.getElem?_set, htl, if_true] at hk'
          split at hk'
          · rename_i e; subst e
            cases hk'
            refine ⟨ht.num, fun c hc => ht.instrs c (by simp [hc]), o, hsyn, ?_⟩
            intro y hy
            rw [hox] at hy; cases hy
            right; simp only; rw [hset, if_pos rfl]; omega
          · exact (h.tasks _ _ hk').mono hmono
        · intro j y hj hty
          rcases h.progress j y hj hty with h1 | ⟨k, h1, h2⟩
          · exact .inl (hmono y h1)
          · by_cases e : t = j
            · subst e
              rw [hk] at h1; cases h1
              simp only [List.mem_cons] at h2
              rcases h2 with h2 | h2
              · cases h2; left; simp only; rw [hset, if_pos rfl]; omega
              · exact .inr ⟨_, List.getElem?_set_self htl, h2⟩
            · exact .inr ⟨k, by simp [e, h1], h2⟩
      · cases hs
    · rename_i hr
      cases hs
      have hLx : lab s.labels x ≠ -1 := by
        rcases hreg x hox with h1 | h1
        · simp [noise] at hr; simp at h1; omega
        · exact h1
      refine { h with tasks := ?_, lenT := by simpa using h.lenT, progress := ?_ }
      · intro t' k hk'
        simp only [List.getElem?_set, htl, if_true] at hk'
        split at hk'
        · rename_i e; subst e
          cases hk'
          exact ⟨ht.num, fun c hc => ht.instrs c (by simp [hc]), o, hsyn, hreg⟩
        · exact h.tasks _ _ hk'
      · intro j y hj hty
        rcases h.progress j y hj hty with h1 | ⟨k, h1, h2⟩
        · exact .inl h1
        · by_cases e : t = j
          · subst e
            rw [hk] at h1; cases h1
            simp only [List.mem_cons] at h2
            rcases h2 with h2 | h2
            · cases h2; exact .inl hLx
            · exact .inr ⟨_, List.getElem?_set_self htl, h2⟩
          · exact .inr ⟨k, by simp [e, h1], h2⟩

/-- A step of an unfinished task is never undefined. -/
theorem pStep_defined {s : PState} {t : Nat} (h : PInv n C adj s) (k : Task) (hk : s.tasks[t]? = some k)
    (hne : k.todo ≠ []) : (pStep s t).isSome := by
  have ht := h.tasks _ _ hk
  obtain ⟨i, todo, reg⟩ := k
  cases todo with
  | nil => exact absurd rfl hne
  | cons c rest =>
    have hc := ht.instrs c (by simp)
    cases c with
    | read x =>
      have hx : x < n := hc
      have hx' : x < s.labels.length := by rw [h.len]; exact hx
      simp [pStep, hk, hx']
    | dup a b =>
      have ha : a < s.dup.length := by rw [h.lenD]; exact hc.1
      simp [pStep, hk, ha]
    | write x =>
      have hx : x < s.labels.length := by rw [h.len]; exact hc.1
      simp only [pStep, hk, hx]
      split <;> simp

theorem pRun_inv {s s' : PState} {sch : List Nat} (h : PInv n C adj s) (hs : pRun s sch = some s') : PInv n C adj s' := by
  unfold pRun at hs
  induction sch generalizing s with
  | nil => simp at hs; subst hs; exact h
  | cons t sch ih =>
    rw [List.foldlM_cons] at hs
    cases h1 : pStep s t with
    | none => rw [h1] at hs; cases hs
    | some s1 => rw [h1] at hs; exact ih (pStep_inv h h1) hs

theorem syn_body (ns : List Nat) (i : Nat) (o : Option Nat) :
    Syn o (ns.flatMap fun s => [.read s, if i < s then .dup s i else .dup i s, .write s]) := by
  induction ns generalizing o with
  | nil => simp [Syn]
  | cons s ns ih =>
    simp only [List.flatMap_cons, List.cons_append, List.nil_append, Syn]
    split <;> exact ⟨rfl, ih _⟩

theorem pInit_inv {nb : List (List Nat)} {core : List Bool} (hnb : nb.length = n)
    (hC : ∀ i, C i ↔ core[i]? = some true) (hadj : ∀ i l, nb[i]? = some l → ∀ j, adj i j ↔ j ∈ l)
    (adjn : ∀ a b, adj a b → b < n) (irr : ∀ a, ¬ adj a a) : PInv n C adj (pInit n nb core) := by
  have hrep : ∀ x, lab (List.replicate n noise) x = -1 := by
    intro x; by_cases hx : x < n <;> simp [lab, hx, noise]
  refine ⟨by simp [pInit], by simp [pInit], fun x _ => .inl (hrep x), fun x _ => .inl (hrep x), ?_, by simp [pInit], ?_⟩
  · intro t k hk
    simp only [pInit, List.getElem?_map] at hk
    by_cases ht : t < n
    · rw [List.getElem?_range ht] at hk
      simp only [Option.map_some, Option.some.injEq] at hk
      subst hk
      refine ⟨⟨rfl, ht⟩, ?_, ?_⟩
      · intro c hc
        simp only at hc
        split at hc
        · rename_i hcore
          have hCt := (hC t).mpr hcore
          have hl : nb[t]? = some (nb[t]'(by omega)) := List.getElem?_eq_getElem (by omega)
          rw [hl] at hc
          simp only [body, Option.getD_some, List.mem_append, List.mem_cons, List.not_mem_nil, or_false,
            List.mem_flatMap] at hc
          rcases hc with (rfl | rfl) | ⟨s, hs, hc⟩
          · exact ht
          · exact ⟨ht, hCt, .inl rfl⟩
          · have ha := (hadj t _ hl s).mpr hs
            have hsn := adjn _ _ ha
            have hne : s ≠ t := by rintro rfl; exact irr _ ha
            rcases hc with rfl | rfl | rfl
            · exact hsn
            · split
              · rename_i hlt; exact ⟨hsn, hlt, .inr ⟨hCt, ha⟩⟩
              · exact ⟨ht, by omega, .inl ⟨hCt, ha⟩⟩
            · exact ⟨hsn, hCt, .inr ha⟩
        · simp at hc
      · simp only
        split
        · exact ⟨none, by simp only [body, List.cons_append, List.nil_append, Syn]; exact ⟨trivial, syn_body _ _ _⟩, by simp⟩
        · exact ⟨none, trivial, by simp⟩
    · rw [List.getElem?_eq_none (by simpa using ht)] at hk
      simp at hk
  · intro i x hi ⟨hCi, hx⟩
    right
    have hl : nb[i]? = some (nb[i]'(by omega)) := List.getElem?_eq_getElem (by omega)
    refine ⟨_, by simp only [pInit, List.getElem?_map]; rw [List.getElem?_range hi]; rfl, ?_⟩
    simp only [(hC i).mp hCi, if_true, body, hl, Option.getD_some]
    rcases hx with rfl | hx
    · simp
    · simp only [List.mem_append, List.mem_flatMap]
      right
      exact ⟨x, (hadj i _ hl x).mp hx, by simp⟩

/-! ### After the first loop -/

/-- Connected through edges with a core end. -/
abbrev Conn (C : Nat → Prop) (adj : Nat → Nat → Prop) : Nat → Nat → Prop := Relation.EqvGen (Edge C adj)

theorem follow_spec {dup : List Int} (hd : ∀ a, a < n → lab dup a = -1 ∨ ∃ b : Nat, lab dup a = b ∧ b < a ∧ Edge C adj a b)
    (hl : dup.length = n) (fuel c : Nat) (hc : c < fuel) (hcn : c < n) :
    ∃ e : Nat, follow dup fuel c = some (e : Int) ∧ e < n ∧ Conn C adj c e := by
  induction fuel generalizing c with
  | zero => omega
  | succ fuel ih =>
    have hget : dup[c]? = some (lab dup c) := by simp [lab, hl, hcn]
    simp only [follow, Int.toNat_natCast, hget]
    rw [if_neg (by omega)]
    rcases hd c hcn with h | ⟨b, h, hb, he⟩
    · rw [h]; exact ⟨c, by simp [noise], hcn, .refl _⟩
    · rw [h, if_pos (by simp [noise])]
      obtain ⟨e, h1, h2, h3⟩ := ih b (by omega) (by omega)
      exact ⟨e, h1, h2, .trans _ _ _ (.rel _ _ he) h3⟩

/-- `mapM` in `Option`. -/
theorem mapM_some {α β : Type} (f : α → Option β) (l : List α) (h : ∀ a ∈ l, (f a).isSome) :
    ∃ out, l.mapM f = some out ∧ out.length = l.length ∧
      ∀ (i : Nat) a, l[i]? = some a → ∃ b, f a = some b ∧ out[i]? = some b := by
  induction l with
  | nil => exact ⟨[], rfl, rfl, by simp⟩
  | cons a l ih =>
    obtain ⟨out, h1, h2, h3⟩ := ih (fun b hb => h b (by simp [hb]))
    obtain ⟨b, hb⟩ := Option.isSome_iff_exists.mp (h a (by simp))
    refine ⟨b :: out, by simp [List.mapM_cons, hb, h1], by simp [h2], ?_⟩
    intro i x hx
    cases i with
    | zero => simp at hx; subst hx; exact ⟨b, hb, by simp⟩
    | succ i => simpa using h3 i x (by simpa using hx)

/-- The relabelling table after a prefix of the labels. -/
structure RInv (n : Nat) (done : List Int) (R : List Int) (k : Nat) : Prop where
  len : R.length = n
  range : ∀ c, c < n → lab R c = -1 ∨ (0 ≤ lab R c ∧ lab R c < k)
  inj : ∀ c d, c < n → d < n → lab R c ≠ -1 → lab R c = lab R d → c = d
  mem : ∀ c : Nat, c < n → (lab R c ≠ -1 ↔ (c : Int) ∈ done)
  used : ∀ v : Nat, v < k → ∃ c, c < n ∧ lab R c = v

theorem remap_spec (labels : List Int) (hl : ∀ l ∈ labels, l = -1 ∨ ∃ c : Nat, l = c ∧ c < n) :
    ∀ (done R : List Int) (k : Nat), RInv n done R k →
      ∃ R' k', labels.foldlM remapStep (R, k) = some (R', k') ∧ RInv n (done ++ labels) R' k' := by
  induction labels with
  | nil => intro done R k h; exact ⟨R, k, rfl, by simpa using h⟩
  | cons l labels ih =>
    intro done R k h
    have hstep : ∃ R1 k1, remapStep (R, k) l = some (R1, k1) ∧ RInv n (done ++ [l]) R1 k1 := by
      rcases hl l (by simp) with rfl | ⟨c, rfl, hc⟩
      · refine ⟨R, k, by simp [remapStep, noise], h.len, h.range, h.inj, ?_, h.used⟩
        intro c hc; rw [h.mem c hc]; simp
      · have hget : R[c]? = some (lab R c) := by simp [lab, h.len, hc]
        simp only [remapStep, Int.toNat_natCast, hget]
        rw [if_neg (by simp [noise]), if_neg (by omega)]
        by_cases hr : lab R c = noise
        · rw [if_pos hr]
          simp only [noise] at hr
          have hset : ∀ d, lab (R.set c k) d = if d = c then (k : Int) else lab R d :=
            fun d => lab_set _ _ _ _ (by rw [h.len]; exact hc)
          refine ⟨_, _, rfl, by simpa using h.len, ?_, ?_, ?_, ?_⟩
          · intro d hd; rw [hset]; split
            · right; omega
            · have := h.range d hd; omega
          · intro d e hd he
            rw [hset, hset]
            have r1 := h.range d hd
            have r2 := h.range e he
            have r3 := h.inj d e hd he
            grind
          · intro d hd
            rw [hset]
            have := h.mem d hd
            simp only [List.mem_append, List.mem_singleton]
            split
            · rename_i e; subst e; simp
            · rename_i e
              rw [this]
              constructor
              · exact .inl
              · rintro (h | h)
                · exact h
                · exact absurd (by exact_mod_cast h) e
          · intro v hv
            by_cases hvk : v = k
            · subst hvk; exact ⟨c, hc, by simp [hset]⟩
            · obtain ⟨d, hd, ed⟩ := h.used v (by omega)
              refine ⟨d, hd, ?_⟩
              rw [hset, if_neg]; exact ed
              rintro rfl; omega
        · rw [if_neg hr]
          simp only [noise] at hr
          refine ⟨R, k, rfl, h.len, h.range, h.inj, ?_, h.used⟩
          intro d hd; rw [h.mem d hd]
          simp only [List.mem_append, List.mem_singleton]
          constructor
          · exact .inl
          · rintro (h' | h')
            · exact h'
            · have : d = c := by exact_mod_cast h'
              subst this; exact (h.mem d hd).mp hr
    obtain ⟨R1, k1, h1, h2⟩ := hstep
    obtain ⟨R', k', h3, h4⟩ := ih (fun l hl' => hl l (by simp [hl'])) _ R1 k1 h2
    exact ⟨R', k', by rw [List.foldlM_cons, h1]; exact h3, by simpa using h4⟩

/-- What the parallel method delivers in every interleaving. -/
theorem finish_spec {s : PState} (h : PInv n C adj s) (hf : s.finished) (hcn : ∀ i, C i → i < n) :
    ∃ out k, finish n s = some (out, k) ∧ out.length = n ∧
      (∀ x, x < n → (lab out x = -1 ↔ ¬ ∃ i, Touch C adj i x)) ∧
      (∀ x, x < n → lab out x = -1 ∨ (0 ≤ lab out x ∧ lab out x < k)) ∧
      (∀ c : Nat, c < k → ∃ x, x < n ∧ lab out x = c) ∧
      (∀ x y, x < n → y < n → lab out x ≠ -1 → lab out x = lab out y → Conn C adj x y) := by
  have hlabel : ∀ x, x < n → (lab s.labels x = -1 ↔ ¬ ∃ i, Touch C adj i x) := by
    intro x hx
    constructor
    · rintro h1 ⟨i, hi⟩
      rcases h.progress i x (hcn i hi.1) hi with h2 | ⟨k, h2, h3⟩
      · exact h2 h1
      · have := hf k (List.mem_of_getElem? h2)
        rw [this] at h3; simp at h3
    · intro h1
      rcases h.label x hx with h2 | ⟨i, _, _, h3⟩
      · exact h2
      · exact absurd ⟨i, h3⟩ h1
  -- second loop
  have hsome : ∀ l ∈ s.labels, (if l = noise then some l else follow s.dup s.dup.length l).isSome := by
    intro l hl
    obtain ⟨x, hx, rfl⟩ := List.getElem_of_mem hl
    rw [lab_get _ _ hx]
    rcases h.label x (by rw [← h.len]; exact hx) with h1 | ⟨i, h1, h2, _⟩
    · simp [h1, noise]
    · rw [h1, if_neg (by simp [noise])]
      obtain ⟨e, he, _⟩ := follow_spec h.dups h.lenD s.dup.length i (by rw [h.lenD]; exact h2) h2
      rw [he]; rfl
  obtain ⟨l1, e1, len1, g1⟩ := mapM_some _ _ hsome
  have hl1 : ∀ x, x < n → (lab l1 x = -1 ∧ lab s.labels x = -1) ∨
      (∃ e : Nat, lab l1 x = e ∧ e < n ∧ Conn C adj x e ∧ lab s.labels x ≠ -1) := by
    intro x hx
    have hx' : x < s.labels.length := by rw [h.len]; exact hx
    obtain ⟨b, hb, hb'⟩ := g1 x (lab s.labels x) (by simp [lab, hx'])
    have hlb : lab l1 x = b := by simp [lab, hb']
    rcases h.label x hx with h1 | ⟨i, h1, h2, h3⟩
    · left; rw [h1] at hb; simp [noise] at hb; exact ⟨by rw [hlb, ← hb], h1⟩
    · right
      rw [h1, if_neg (by simp [noise])] at hb
      obtain ⟨e, he, hen, hce⟩ := follow_spec h.dups h.lenD s.dup.length i (by rw [h.lenD]; exact h2) h2
      rw [he] at hb; cases hb
      refine ⟨e, hlb, hen, ?_, by omega⟩
      rcases h3 with ⟨hCi, rfl | hax⟩
      · exact hce
      · exact .trans _ _ _ (.rel _ _ (.inr ⟨hCi, hax⟩)) hce
  have len1' : l1.length = n := by rw [len1, h.len]
  have hl1' : ∀ l ∈ l1, l = -1 ∨ ∃ c : Nat, l = c ∧ c < n := by
    intro l hl
    obtain ⟨x, hx, rfl⟩ := List.getElem_of_mem hl
    rw [lab_get _ _ hx]
    rcases hl1 x (by omega) with h | ⟨e, h1, h2, _⟩
    · exact .inl h.1
    · exact .inr ⟨e, h1, h2⟩
  have hrep : ∀ x, lab (List.replicate n noise) x = -1 := by
    intro x; by_cases hx : x < n <;> simp [lab, hx, noise]
  obtain ⟨R, k, e2, hR⟩ := remap_spec l1 hl1' [] (List.replicate n noise) 0
    ⟨by simp, fun c _ => .inl (hrep c), fun c d _ _ h => absurd (hrep c) h, fun c _ => by simp [hrep], by simp⟩
  simp only [List.nil_append] at hR
  have hsome2 : ∀ l ∈ l1, (if l = noise then some l else if l < 0 then none else R[l.toNat]?).isSome := by
    intro l hl
    rcases hl1' l hl with rfl | ⟨c, rfl, hc⟩
    · simp [noise]
    · rw [if_neg (by simp [noise]), if_neg (by omega)]
      simp [hR.len, hc]
  obtain ⟨out, e3, len3, g3⟩ := mapM_some _ _ hsome2
  have hout : ∀ x, x < n → (lab out x = -1 ∧ lab l1 x = -1) ∨
      (∃ e : Nat, lab l1 x = e ∧ e < n ∧ lab out x = lab R e ∧ lab R e ≠ -1) := by
    intro x hx
    have hx' : x < l1.length := by omega
    obtain ⟨b, hb, hb'⟩ := g3 x (lab l1 x) (by simp [lab, hx'])
    have hlb : lab out x = b := by simp [lab, hb']
    rcases hl1 x hx with ⟨h1, _⟩ | ⟨e, h1, h2, _⟩
    · left; rw [h1] at hb; simp [noise] at hb; exact ⟨by rw [hlb, ← hb], h1⟩
    · right
      rw [h1, if_neg (by simp [noise]), if_neg (by omega)] at hb
      simp only [Int.toNat_natCast] at hb
      refine ⟨e, h1, h2, by rw [hlb]; simp [lab, hb], ?_⟩
      rw [hR.mem e h2, ← h1, ← lab_get _ _ hx']
      exact List.getElem_mem _
  refine ⟨out, k, ?_, by omega, ?_, ?_, ?_, ?_⟩
  · simp only [finish, resolve, e1]
    simp only [Option.bind_eq_bind, Option.bind_some]
    rw [e2]
    simp only [Option.bind_some]
    rw [e3]; rfl
  · intro x hx
    rw [← hlabel x hx]
    rcases hout x hx with ⟨h1, h2⟩ | ⟨e, h1, h2, h3, h4⟩ <;> rcases hl1 x hx with ⟨h5, h6⟩ | ⟨e', h5, h6, _, h7⟩
    · simp [h1, h6]
    · omega
    · omega
    · rw [h3]; exact ⟨fun h => absurd h h4, fun h => absurd h h7⟩
  · intro x hx
    rcases hout x hx with ⟨h1, h2⟩ | ⟨e, h1, h2, h3, h4⟩
    · exact .inl h1
    · rw [h3]; exact hR.range e h2
  · intro c hc
    obtain ⟨d, hd, ed⟩ := hR.used c hc
    have : (d : Int) ∈ l1 := (hR.mem d hd).mp (by omega)
    obtain ⟨x, hx, ex⟩ := List.getElem_of_mem this
    rw [lab_get _ _ hx] at ex
    refine ⟨x, by omega, ?_⟩
    rcases hout x (by omega) with ⟨h1, h2⟩ | ⟨e, h1, h2, h3, h4⟩
    · omega
    · have : e = d := by omega
      rw [h3, this, ed]
  · intro x y hx hy hne he
    rcases hout x hx with ⟨h1, h2⟩ | ⟨e, h1, h2, h3, h4⟩
    · exact absurd h1 hne
    rcases hout y hy with ⟨h1', h2'⟩ | ⟨e', h1', h2', h3', h4'⟩
    · omega
    have hee : e = e' := hR.inj e e' h2 h2' h4 (by omega)
    subst hee
    rcases hl1 x hx with ⟨h5, h6⟩ | ⟨f, h5, h6, h7, _⟩
    · omega
    rcases hl1 y hy with ⟨h5', h6'⟩ | ⟨f', h5', h6', h7', _⟩
    · omega
    have : f = f' := by omega
    subst this
    exact .trans _ _ _ h7 (.symm _ _ h7')
end Verif.Dbscan
