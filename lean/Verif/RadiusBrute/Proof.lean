/- Helper lemmas: the triangular block loop visits every unordered pair once. -/
import Verif.RadiusBrute.Model
import Mathlib.Tactic.Ring
import Mathlib.Tactic.Linarith
import Mathlib.Data.List.Nodup
import Mathlib.Data.List.Perm.Basic
import Mathlib.Algebra.Group.Nat.Even
namespace Verif.RadiusBrute

/-- Triangular number. -/
def tri (b : Nat) : Nat := b * (b + 1) / 2

theorem two_tri (b : Nat) : 2 * tri b = b * (b + 1) := by
  unfold tri
  exact Nat.two_mul_div_two_of_even (Nat.even_mul_succ_self b)

theorem tri_mono {a b : Nat} (h : a ≤ b) : tri a ≤ tri b := by
  have h1 := two_tri a
  have h2 := two_tri b
  have : a * (a + 1) ≤ b * (b + 1) := Nat.mul_le_mul h (by omega)
  omega

theorem tri_succ (b : Nat) : tri (b + 1) = tri b + b + 1 := by
  have h1 := two_tri b
  have h2 := two_tri (b + 1)
  have : (b + 1) * (b + 1 + 1) = b * (b + 1) + 2 * b + 2 := by ring
  omega

theorem blockOf_bounds (k : Nat) :
    tri (blockOf k).2 ≤ k ∧ k < tri ((blockOf k).2 + 1) ∧ (blockOf k).1 = k - tri (blockOf k).2 := by
  have h1 : Nat.sqrt (8 * k + 1) * Nat.sqrt (8 * k + 1) ≤ 8 * k + 1 := Nat.sqrt_le _
  have h2 : 8 * k + 1 < (Nat.sqrt (8 * k + 1) + 1) * (Nat.sqrt (8 * k + 1) + 1) := Nat.lt_succ_sqrt _
  simp only [blockOf]
  generalize Nat.sqrt (8 * k + 1) = s at *
  have hs : 1 ≤ s := by
    by_contra h
    have : s = 0 := by omega
    subst this; omega
  obtain ⟨b, hb⟩ : ∃ b, b = (s - 1) / 2 := ⟨_, rfl⟩
  rw [← hb]
  have hlo : 2 * b + 1 ≤ s := by omega
  have hhi : s + 1 ≤ 2 * b + 3 := by omega
  have e1 := two_tri b
  have e2 := tri_succ b
  have l1 : (2 * b + 1) * (2 * b + 1) ≤ s * s := Nat.mul_le_mul hlo hlo
  have l2 : (s + 1) * (s + 1) ≤ (2 * b + 3) * (2 * b + 3) := Nat.mul_le_mul hhi hhi
  have r1 : (2 * b + 1) * (2 * b + 1) = 4 * (b * (b + 1)) + 1 := by ring
  have r2 : (2 * b + 3) * (2 * b + 3) = 4 * (b * (b + 1)) + 8 * b + 9 := by ring
  refine ⟨by omega, by omega, ?_⟩
  unfold tri; rfl

theorem blockOf_unique {a b k : Nat} (hab : a ≤ b) (hk : k = tri b + a) : blockOf k = (a, b) := by
  obtain ⟨h1, h2, h3⟩ := blockOf_bounds k
  generalize hb' : (blockOf k).2 = b' at *
  have hbb : b' = b := by
    by_contra hne
    rcases Nat.lt_or_gt_of_ne hne with h | h
    · have := tri_mono (show b' + 1 ≤ b from h); omega
    · have := tri_mono (show b + 1 ≤ b' from h)
      have := tri_succ b
      omega
  subst hbb
  ext
  · simp only; omega
  · exact hb'

/-- Sizes of the blocks as the routine computes them. -/
structure Scheme (n mbs nb rem : Nat) : Prop where
  pos : 0 < mbs
  size : ∀ b, b < nb → ∀ x, x < (if b = nb - 1 ∧ rem > 0 then rem else mbs) ↔ x < mbs ∧ b * mbs + x < n
  cover : ∀ i, i < n ↔ i / mbs < nb ∧ i < n

theorem scheme {n mbs nb rem : Nat} (h : Blocking.blockingScheme n mbs = some (nb, rem)) : Scheme n mbs nb rem := by
  unfold Blocking.blockingScheme at h
  split at h
  · cases h
  · rename_i hm
    simp only [Option.some.injEq, Prod.mk.injEq] at h
    obtain ⟨rfl, rfl⟩ := h
    have hpos : 0 < mbs := Nat.pos_of_ne_zero hm
    have hdiv := Nat.div_add_mod n mbs
    have hlt := Nat.mod_lt n hpos
    refine ⟨hpos, ?_, ?_⟩
    · intro b hb x
      by_cases hr : n % mbs > 0
      · simp only [hr, if_true, and_true, Nat.add_sub_cancel] at hb ⊢
        by_cases hbq : b = n / mbs
        · subst hbq
          rw [if_pos rfl, Nat.mul_comm]; omega
        · rw [if_neg hbq]
          have h1 : (b + 1) * mbs ≤ n / mbs * mbs := Nat.mul_le_mul_right _ (by omega)
          rw [Nat.mul_comm (n / mbs), Nat.add_mul] at h1
          omega
      · simp only [hr, if_false, and_false] at hb ⊢
        have h1 : (b + 1) * mbs ≤ n / mbs * mbs := Nat.mul_le_mul_right _ (by omega)
        rw [Nat.mul_comm (n / mbs), Nat.add_mul] at h1
        omega
    · intro i
      refine ⟨fun hi => ⟨?_, hi⟩, fun h => h.2⟩
      have : i / mbs ≤ n / mbs := Nat.div_le_div_right (by omega)
      split
      · omega
      · rename_i hr
        rw [Nat.div_lt_iff_lt_mul hpos, Nat.mul_comm]; omega

theorem mem_visited {n mbs nb rem : Nat} (h : Scheme n mbs nb rem) (k : Nat) (hk : k < tri nb) (i j : Nat) :
    (i, j) ∈ visited mbs nb rem k ↔ i ≤ j ∧ j < n ∧ k = tri (j / mbs) + i / mbs := by
  obtain ⟨h1, h2, h3⟩ := blockOf_bounds k
  have hpos := h.pos
  simp only [visited]
  generalize hb : (blockOf k).2 = b at *
  generalize ha : (blockOf k).1 = a at *
  have hbn : b < nb := by
    by_contra hc
    have := tri_mono (show nb ≤ b by omega); omega
  have hab : a ≤ b := by have := tri_succ b; omega
  simp only [List.mem_flatMap, List.mem_range, List.mem_map, Prod.mk.injEq]
  constructor
  · rintro ⟨jj, hjj, ii, hii, rfl, rfl⟩
    obtain ⟨hj1, hj2⟩ := (h.size b hbn jj).mp hjj
    have hi1 : ii < mbs ∧ (a = b → ii ≤ jj) := by
      split at hii
      · exact ⟨by omega, fun _ => by omega⟩
      · rename_i hne
        exact ⟨((h.size a (by omega) ii).mp hii).1, fun e => absurd e hne⟩
    have e1 : (b * mbs + jj) / mbs = b := by
      rw [Nat.mul_comm, Nat.mul_add_div hpos, Nat.div_eq_of_lt hj1]; omega
    have e2 : (a * mbs + ii) / mbs = a := by
      rw [Nat.mul_comm, Nat.mul_add_div hpos, Nat.div_eq_of_lt hi1.1]; omega
    refine ⟨?_, hj2, by rw [e1, e2]; omega⟩
    by_cases e : a = b
    · subst e; have := hi1.2 rfl; omega
    · have : (a + 1) * mbs ≤ b * mbs := Nat.mul_le_mul_right _ (by omega)
      rw [Nat.add_mul] at this; omega
  · rintro ⟨hij, hj, hkk⟩
    have hdd : i / mbs ≤ j / mbs := Nat.div_le_div_right hij
    have hbo := blockOf_unique hdd hkk
    have ea : a = i / mbs := by rw [← ha, hbo]
    have eb : b = j / mbs := by rw [← hb, hbo]
    have di := Nat.div_add_mod i mbs
    have dj := Nat.div_add_mod j mbs
    have mi := Nat.mod_lt i hpos
    have mj := Nat.mod_lt j hpos
    refine ⟨j % mbs, (h.size b hbn _).mpr ⟨mj, by rw [eb, Nat.mul_comm]; omega⟩, i % mbs, ?_, by rw [ea, Nat.mul_comm]; exact di,
      by rw [eb, Nat.mul_comm]; exact dj⟩
    split
    · rename_i e
      rw [ea, eb] at e
      rw [← e] at dj
      omega
    · exact (h.size a (by omega) _).mpr ⟨mi, by rw [ea, Nat.mul_comm]; omega⟩

theorem visited_nodup (mbs nb rem k : Nat) : (visited mbs nb rem k).Nodup := by
  simp only [visited]
  rw [List.nodup_flatMap]
  refine ⟨?_, ?_⟩
  · intro jj _
    refine (List.nodup_map_iff ?_).mpr List.nodup_range
    intro x y h; simp at h; exact h
  · refine List.nodup_range.imp ?_
    intro x y hxy
    simp only [Function.onFun, List.disjoint_left, List.mem_map, not_exists]
    rintro ⟨i, j⟩ ⟨ii, _, h1⟩ ii' ⟨_, h2⟩
    rw [← h2] at h1
    simp at h1
    exact hxy h1.2

variable {K : Type} [Field K] [LinearOrder K]

/-- The test of line 173. -/
def near (d : Kernels K) (metric : Metric) (p eps : K) (i j : Nat) : Prop :=
  entry d (metricInternal metric p) p i j ≤ epsInternal metric eps

theorem mem_pushes {n mbs nb rem : Nat} (h : Scheme n mbs nb rem) (d : Kernels K) (metric : Metric) (p eps : K) (k : Nat)
    (hk : k < tri nb) (i j : Nat) :
    (i, j) ∈ pushes d metric p eps mbs nb rem k ↔
      (i < j ∧ j < n ∧ near d metric p eps i j ∧ k = tri (j / mbs) + i / mbs) ∨
      (j < i ∧ i < n ∧ near d metric p eps j i ∧ k = tri (i / mbs) + j / mbs) := by
  simp only [pushes, List.mem_flatMap, Prod.exists]
  constructor
  · rintro ⟨a, b, hab, hx⟩
    rw [mem_visited h k hk] at hab
    split at hx
    · rename_i hc
      simp only [List.mem_cons, Prod.mk.injEq, List.not_mem_nil, or_false] at hx
      rcases hx with ⟨rfl, rfl⟩ | ⟨rfl, rfl⟩
      · left; exact ⟨by have := hc.2; simp at this; omega, hab.2.1, hc.1, hab.2.2⟩
      · right; exact ⟨by have := hc.2; simp at this; omega, hab.2.1, hc.1, hab.2.2⟩
    · simp at hx
  · rintro (⟨h1, h2, h3, h4⟩ | ⟨h1, h2, h3, h4⟩)
    · refine ⟨i, j, (mem_visited h k hk i j).mpr ⟨by omega, h2, h4⟩, ?_⟩
      rw [if_pos ⟨h3, by simp; omega⟩]; simp
    · refine ⟨j, i, (mem_visited h k hk j i).mpr ⟨by omega, h2, h4⟩, ?_⟩
      rw [if_pos ⟨h3, by simp; omega⟩]; simp

theorem pushes_nodup {n mbs nb rem : Nat} (h : Scheme n mbs nb rem) (d : Kernels K) (metric : Metric) (p eps : K) (k : Nat)
    (hk : k < tri nb) : (pushes d metric p eps mbs nb rem k).Nodup := by
  unfold pushes
  rw [List.nodup_flatMap]
  refine ⟨?_, ?_⟩
  · rintro ⟨a, b⟩ _
    dsimp only
    split
    · rename_i hc
      simp only [List.nodup_cons, List.mem_cons, Prod.mk.injEq, List.not_mem_nil, or_false, not_false_iff,
        List.nodup_nil, and_true, and_self]
      intro e; exact hc.2 e.1
    · simp
  · refine List.Pairwise.imp_of_mem ?_ (visited_nodup mbs nb rem k)
    rintro ⟨a, b⟩ ⟨a', b'⟩ hm hm' hne
    rw [mem_visited h k hk] at hm hm'
    simp only [Function.onFun, List.disjoint_left]
    rintro ⟨x, y⟩ h1 h2
    split at h1
    · split at h2
      · rename_i c1 c2
        simp only [List.mem_cons, Prod.mk.injEq, List.not_mem_nil, or_false] at h1 h2
        apply hne
        have := c1.2; have := c2.2
        simp only [ne_eq] at *
        ext <;> simp only <;> omega
      · simp at h2
    · simp at h1

/-- All pushes of all threads. -/
theorem all_pushes {n mbs nb rem : Nat} (h : Scheme n mbs nb rem) (d : Kernels K) (metric : Metric) (p eps : K)
    (threads : List (List Nat)) (hth : threads.flatten.Perm (List.range (tri nb))) :
    let all := threads.flatMap fun ks => ks.flatMap (pushes d metric p eps mbs nb rem)
    all.Nodup ∧ ∀ i j, (i, j) ∈ all ↔ i ≠ j ∧ i < n ∧ j < n ∧ near d metric p eps (min i j) (max i j) := by
  intro all
  have hperm : all.Perm ((List.range (tri nb)).flatMap (pushes d metric p eps mbs nb rem)) := by
    have : all = threads.flatten.flatMap (pushes d metric p eps mbs nb rem) := by
      simp only [all]
      rw [List.flatten_eq_flatMap, List.flatMap_assoc]; rfl
    rw [this]
    exact hth.flatMap_right _
  refine ⟨hperm.nodup_iff.mpr ?_, ?_⟩
  · rw [List.nodup_flatMap]
    refine ⟨fun k hk => pushes_nodup h d metric p eps k (by simpa using hk), ?_⟩
    refine List.Pairwise.imp_of_mem ?_ (List.nodup_range (n := tri nb))
    intro k k' hk hk' hne
    simp only [List.mem_range] at hk hk'
    simp only [Function.onFun, List.disjoint_left]
    rintro ⟨i, j⟩ h1 h2
    rw [mem_pushes h d metric p eps _ hk] at h1
    rw [mem_pushes h d metric p eps _ hk'] at h2
    apply hne
    rcases h1 with h1 | h1 <;> rcases h2 with h2 | h2 <;> omega
  · intro i j
    rw [hperm.mem_iff, List.mem_flatMap]
    have hrange : ∀ a b, a ≤ b → b < n → tri (b / mbs) + a / mbs < tri nb := by
      intro a b hab hb
      have h1 := (h.cover b).mp hb
      have h2 := tri_mono (show b / mbs + 1 ≤ nb from h1.1)
      have h3 := tri_succ (b / mbs)
      have h4 : a / mbs ≤ b / mbs := Nat.div_le_div_right hab
      omega
    constructor
    · rintro ⟨k, hk, hx⟩
      rw [mem_pushes h d metric p eps _ (by simpa using hk)] at hx
      rcases hx with ⟨h1, h2, h3, _⟩ | ⟨h1, h2, h3, _⟩
      · rw [Nat.min_eq_left (by omega), Nat.max_eq_right (by omega)]
        exact ⟨by omega, by omega, h2, h3⟩
      · rw [Nat.min_eq_right (by omega), Nat.max_eq_left (by omega)]
        exact ⟨by omega, h2, by omega, h3⟩
    · rintro ⟨hne, hi, hj, hd⟩
      rcases Nat.lt_or_gt_of_ne hne with hlt | hlt
      · rw [Nat.min_eq_left (by omega), Nat.max_eq_right (by omega)] at hd
        have hk := hrange i j (by omega) hj
        exact ⟨_, by simpa using hk, (mem_pushes h d metric p eps _ hk i j).mpr (.inl ⟨hlt, hj, hd, rfl⟩)⟩
      · rw [Nat.min_eq_right (by omega), Nat.max_eq_left (by omega)] at hd
        have hk := hrange j i (by omega) hi
        exact ⟨_, by simpa using hk, (mem_pushes h d metric p eps _ hk i j).mpr (.inr ⟨hlt, hi, hd, rfl⟩)⟩

theorem filterMap_nodup (l : List (Nat × Nat)) (h : l.Nodup) (i : Nat) :
    (l.filterMap fun x => if x.1 = i then some x.2 else none).Nodup := by
  refine h.filterMap ?_
  rintro ⟨a, b⟩ ⟨a', b'⟩ c h1 h2
  simp at h1 h2
  ext <;> simp only <;> omega

end Verif.RadiusBrute
