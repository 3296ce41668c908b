import Mathlib.Tactic.Linarith

/-
The reservation of tree slots by concurrent tasks, barnes_hut.cpp:174-188.
-/
namespace Verif.BarnesHut.Slots

/-- `num_nodes`, the requests that were too large and still have to be taken back, and the blocks
that were given: the first slot and their number. -/
structure St where
  num : Nat
  pending : List Nat
  given : List (Nat × Nat)
  deriving DecidableEq, Repr

/-- An atomic access to `num_nodes` by some task: `ask ne` is the capture of lines 175-179 and
`back i` the subtraction of lines 183-184 by the task whose request is the `i`-th pending one.  The
comparison of line 182 only uses the value that was captured. -/
inductive Ev
  | ask (ne : Nat)
  | back (i : Nat)
  deriving DecidableEq, Repr

def step (capacity : Nat) (s : St) : Ev → Option St
  | .ask ne =>
    if s.num + ne > capacity then some ⟨s.num + ne, s.pending ++ [ne], s.given⟩
    else some ⟨s.num + ne, s.pending, s.given ++ [(s.num, ne)]⟩
  | .back i =>
    match s.pending[i]? with
    | none => none
    | some ne => some ⟨s.num - ne, s.pending.eraseIdx i, s.given⟩

/-- An execution: the accesses in the order in which they take effect; the root has slot 0. -/
def run (capacity : Nat) (evs : List Ev) : Option St :=
  evs.foldlM (step capacity) ⟨1, [], []⟩

/-- Two blocks have no slot in common. -/
def Apart (a b : Nat × Nat) : Prop := a.1 + a.2 ≤ b.1 ∨ b.1 + b.2 ≤ a.1

instance (a b : Nat × Nat) : Decidable (Apart a b) := by unfold Apart; infer_instance

/-- What is wanted: the blocks are in the arena, do not contain slot 0 and are apart, and the
traversal, which skips the slots from `num_nodes` on, sees them. -/
def Sound (capacity : Nat) (s : St) : Prop :=
  s.given.Pairwise Apart ∧ ∀ a ∈ s.given, 1 ≤ a.1 ∧ a.1 + a.2 ≤ capacity ∧ a.1 + a.2 ≤ s.num

instance (capacity : Nat) (s : St) : Decidable (Sound capacity s) := by unfold Sound; infer_instance

/-- The sum of all that is asked for. -/
def asked : List Ev → Nat
  | [] => 0
  | .ask ne :: l => ne + asked l
  | .back _ :: l => asked l

/-- No request is made while another one is to be taken back. -/
inductive Calm (capacity : Nat) : St → List Ev → Prop
  | nil (s : St) : Calm capacity s []
  | ask {s s' : St} {ne : Nat} {l : List Ev} (h : s.pending = []) (hs : step capacity s (.ask ne) = some s')
      (hl : Calm capacity s' l) : Calm capacity s (.ask ne :: l)
  | back {s s' : St} {i : Nat} {l : List Ev} (hs : step capacity s (.back i) = some s')
      (hl : Calm capacity s' l) : Calm capacity s (.back i :: l)

theorem Sound.given {capacity : Nat} {s : St} (h : Sound capacity s) {ne : Nat} (h1 : 1 ≤ s.num)
    (hfit : s.num + ne ≤ capacity) :
    Sound capacity ⟨s.num + ne, s.pending, s.given ++ [(s.num, ne)]⟩ := by
  refine ⟨?_, ?_⟩
  · rw [List.pairwise_append]
    refine ⟨h.1, by simp, ?_⟩
    intro a ha b hb
    rw [List.mem_singleton] at hb
    subst hb
    exact Or.inl (h.2 a ha).2.2
  · intro a ha
    rw [List.mem_append, List.mem_singleton] at ha
    rcases ha with ha | rfl
    · have := h.2 a ha
      exact ⟨this.1, this.2.1, by simp only; omega⟩
    · exact ⟨h1, hfit, Nat.le_refl _⟩

theorem fits_ok (capacity : Nat) : ∀ (evs : List Ev) (s s' : St), s.pending = [] → 1 ≤ s.num →
    Sound capacity s → s.num + asked evs ≤ capacity → evs.foldlM (step capacity) s = some s' →
    Sound capacity s' ∧ s'.pending = [] ∧ s'.num = s.num + asked evs := by
  intro evs
  induction evs with
  | nil =>
    intro s s' hp _ hs _ hr
    obtain rfl : s = s' := by simpa using hr
    exact ⟨hs, hp, rfl⟩
  | cons e evs ih =>
    intro s s' hp h1 hs hfit hr
    rw [List.foldlM_cons] at hr
    cases e with
    | ask ne =>
      simp only [asked] at hfit
      have hst : step capacity s (.ask ne) = some ⟨s.num + ne, s.pending, s.given ++ [(s.num, ne)]⟩ := by
        unfold step
        exact if_neg (by omega)
      rw [hst] at hr
      obtain ⟨g1, g2, g3⟩ := ih ⟨s.num + ne, s.pending, s.given ++ [(s.num, ne)]⟩ s' hp
        (by simp only; omega) (hs.given h1 (by omega)) (by simp only; omega) hr
      exact ⟨g1, g2, by rw [g3]; simp only [asked]; omega⟩
    | back i =>
      exfalso
      simp only [step, hp, List.getElem?_nil] at hr
      cases hr

theorem calm_ok (capacity : Nat) {s : St} {evs : List Ev} (h : Calm capacity s evs) :
    ∀ s', 1 ≤ s.num → (s.pending = [] ∧ Sound capacity s ∨
      ∃ ne, s.pending = [ne] ∧ 1 + ne ≤ s.num ∧ Sound capacity ⟨s.num - ne, [], s.given⟩) →
    evs.foldlM (step capacity) s = some s' → s'.pending = [] → Sound capacity s' := by
  induction h with
  | nil s =>
    intro s' _ hs hr hp
    obtain rfl : s = s' := by simpa using hr
    rcases hs with hs | ⟨ne, h, _⟩
    · exact hs.2
    · rw [hp] at h; cases h
  | @ask s s1 ne l hp hst hl ih =>
    intro s' h1 hs hr hp'
    rw [List.foldlM_cons, hst] at hr
    rcases hs with ⟨_, hs⟩ | ⟨ne, h, _⟩
    swap
    · rw [hp] at h; cases h
    refine ih s' ?_ ?_ hr hp'
    · unfold step at hst
      simp only at hst
      by_cases hc : s.num + ne > capacity
      · rw [if_pos hc] at hst; obtain rfl := Option.some.inj hst; simp only; omega
      · rw [if_neg hc] at hst; obtain rfl := Option.some.inj hst; simp only; omega
    · unfold step at hst
      simp only at hst
      by_cases hc : s.num + ne > capacity
      · rw [if_pos hc] at hst
        obtain rfl := Option.some.inj hst
        right
        refine ⟨ne, by simp [hp], by simp only; omega, ?_⟩
        simp only [Nat.add_sub_cancel]
        exact hs
      · rw [if_neg hc] at hst
        obtain rfl := Option.some.inj hst
        exact Or.inl ⟨hp, hs.given h1 (by omega)⟩
  | @back s s1 i l hst hl ih =>
    intro s' h1 hs hr hp'
    rw [List.foldlM_cons, hst] at hr
    rcases hs with ⟨hp, _⟩ | ⟨ne, hp, hnum, hs⟩
    · unfold step at hst
      rw [hp] at hst
      simp at hst
    · have hi : i = 0 := by
        unfold step at hst
        rw [hp] at hst
        cases i with
        | zero => rfl
        | succ i => simp at hst
      subst hi
      unfold step at hst
      rw [hp] at hst
      simp at hst
      subst hst
      exact ih s' (by simp only; omega) (Or.inl ⟨rfl, hs⟩) hr hp'

end Verif.BarnesHut.Slots
