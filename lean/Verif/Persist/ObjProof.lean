import Verif.Persist.RegProof
set_option linter.unusedSimpArgs false
namespace Verif.Persist

/-! ### What is written for each kind of handle -/

def encDT {f : Sc} (p : DT f) : List Byte := encs (dtTys f) p.1 ++ p.2.flatMap (encs (dtNodeTys f))

def encKd {f : Sc} (p : KdTree f) : List Byte := encs (btTys f) p.1 ++ encBT (encs (kdNodeTys f)) p.2

def encBall {f : Sc} (p : BallTree f) : List Byte := encs (btTys f) p.1 ++ encBT (encs (ballNodeTys f)) p.2

def encNN {f : Sc} (algo : Int) (t : NNTree f) : List Byte :=
  if algo = 1 then match t with | .kd x => encKd x | _ => []
  else if algo = 2 then match t with | .ball x => encBall x | _ => []
  else []

def encObj : (k : Kind) → (f : Sc) → Obj k f → List Byte
  | .linmod, f => encs (linmodTys f)
  | .pca, f => encs (pcaTys f)
  | .kmeans, f => encs (kmeansTys f)
  | .tree, _ => encDT
  | .forest, _ => fun p => encs forestTys p.1 ++ p.2.flatMap encDT
  | .nn, f => fun p => encs (nnTys f) p.1 ++ encNN (vint (nnTys f) p.1 13) p.2
  | .svm, f => fun p => encs (svmTys f) p.1 ++ p.2.flatMap (encs (baseSvmTys f))
  | .ann, f => encs (annTys f)
  | .kpca, f => encs (kpcaTys f)
  | .other, _ => fun _ => []

/-- The trees of a handle are those of its algorithm, with a root, and the indices of their nodes
point into the array of indices. -/
def ValidNN (bits : Nat) (f : Sc) (algo : Int) (t : NNTree f) : Prop :=
  if algo = 1 then
    match t with
    | .kd x => Valids bits (btTys f) x.1 ∧ ValidBT bits (Valids bits (kdNodeTys f)) (vlen (btTys f) x.1 1) x.2 ∧ x.2.nonempty
    | _ => False
  else if algo = 2 then
    match t with
    | .ball x => Valids bits (btTys f) x.1 ∧ ValidBT bits (Valids bits (ballNodeTys f)) (vlen (btTys f) x.1 1) x.2 ∧ x.2.nonempty
    | _ => False
  else t = .none

def ValidDT (bits : Nat) (f : Sc) (m : Mach) : DT f → Prop :=
  ItemsValid (dtItems f m) (Valids bits (dtTys f)) (Valids bits (dtNodeTys f))

/-- Contents a handle can have: values that exist at run time, as many nodes, trees and classifiers
as the count says and the machine can hold. -/
def ValidObj (bits : Nat) (m : Mach) : (k : Kind) → (f : Sc) → Obj k f → Prop
  | .linmod, f => Valids bits (linmodTys f)
  | .pca, f => Valids bits (pcaTys f)
  | .kmeans, f => Valids bits (kmeansTys f)
  | .tree, f => ValidDT bits f m
  | .forest, f => ItemsValid (forestItems f m) (Valids bits forestTys) (ValidDT bits f m)
  | .nn, f => fun p => Valids bits (nnTys f) p.1 ∧ ValidNN bits f (vint (nnTys f) p.1 13) p.2
  | .svm, f => ItemsValid (svmItems f m) (Valids bits (svmTys f)) (fun a => Valids bits (baseSvmTys f) a ∧ kernelCheck f a = .ok)
  | .ann, f => Valids bits (annTys f)
  | .kpca, f => Valids bits (kpcaTys f)
  | .other, _ => fun _ => False

/-- The object that is read into. -/
def InitObj : (k : Kind) → (f : Sc) → Obj k f → Prop
  | .nn, _ => fun p => p.2 = .none
  | .other, _ => fun _ => False
  | _, _ => fun _ => True

theorem lawful_weaken {bits : Nat} {α : Type} {c : Codec α} {e : α → List Byte} {P P' I I' : α → Prop}
    (h : Lawful bits c e P I) (hP : ∀ a, P' a → P a) (hI : ∀ a, I' a → I a) : Lawful bits c e P' I' where
  size_ok a n hp := h.size_ok a n (hP a hp)
  ser_ok size a buf hp := h.ser_ok size a buf (hP a hp)
  ser_len := h.ser_len
  des_ok a init pre post hp hi := h.des_ok a init pre post (hP a hp) (hI init hi)

theorem strict_weaken {bits : Nat} {α : Type} {c : Codec α} {e : α → List Byte} {P I I' : α → Prop}
    (h : Strict bits c e P I) (hI : ∀ a, I' a → I a) : Strict bits c e P I' where
  size_fail := h.size_fail
  ser_fail := h.ser_fail
  des_trunc a init pre k hp hi := h.des_trunc a init pre k hp (hI init hi)

section
variable {bits : Nat} (hb : Width bits) (f : Sc) (m : Mach)
include hb

theorem dt_lawful : Lawful bits (dtCodec bits f m) encDT (ValidDT bits f m) (Any _) :=
  lawful_weaken (items_lawful (fields_lawful hb _) (fields_lawful hb _)
    (fun _ _ => ⟨resize_length _ _ _, fun _ _ => trivial⟩)) (fun _ h => h) (fun _ _ => trivial)

theorem dt_strict : Strict bits (dtCodec bits f m) encDT (ValidDT bits f m) (Any _) :=
  strict_weaken (items_strict (fields_lawful hb _) (fields_strict hb _) (fields_lawful hb _) (fields_strict hb _)
    (fun _ _ => ⟨resize_length _ _ _, fun _ _ => trivial⟩)) (fun _ _ => trivial)

theorem dt_ss : SerStrict bits (dtCodec bits f m) encDT (ValidDT bits f m) :=
  items_ss (fields_lawful hb _) (fields_ss hb _) (fields_lawful hb _) (fields_ss hb _)

theorem kd_lawful : Lawful bits (kdCodec bits f) encKd
    (fun x => Valids bits (btTys f) x.1 ∧ ValidBT bits (Valids bits (kdNodeTys f)) (vlen (btTys f) x.1 1) x.2) (Any _) :=
  btree_lawful hb (fields_lawful hb _) (fields_lawful hb _) _

theorem ball_lawful : Lawful bits (ballCodec bits f) encBall
    (fun x => Valids bits (btTys f) x.1 ∧ ValidBT bits (Valids bits (ballNodeTys f)) (vlen (btTys f) x.1 1) x.2) (Any _) :=
  btree_lawful hb (fields_lawful hb _) (fields_lawful hb _) _

theorem kd_ss : SerStrict bits (kdCodec bits f) encKd
    (fun x => Valids bits (btTys f) x.1 ∧ ValidBT bits (Valids bits (kdNodeTys f)) (vlen (btTys f) x.1 1) x.2 ∧ x.2.nonempty) :=
  btree_ss hb (fields_lawful hb _) (fields_ss hb _) (fields_big _) _

theorem ball_ss : SerStrict bits (ballCodec bits f) encBall
    (fun x => Valids bits (btTys f) x.1 ∧ ValidBT bits (Valids bits (ballNodeTys f)) (vlen (btTys f) x.1 1) x.2 ∧ x.2.nonempty) :=
  btree_ss hb (fields_lawful hb _) (fields_ss hb _) (fields_big _) _

attribute [local irreducible] kdCodec ballCodec

theorem nnTree_des (algo : Int) (t init : NNTree f) (pre post : List Byte) (hv : ValidNN bits f algo t) (hi : init = .none) :
    (nnTreeCodec bits f algo).des (pre ++ encNN algo t ++ post) init pre.length = (.ok, t, pre.length + (encNN algo t).length) := by
  by_cases h1 : algo = 1
  · simp only [ValidNN, encNN, nnTreeCodec, if_pos h1] at hv ⊢
    cases t with
    | kd x =>
      exact congrArg (fun q : St × KdTree f × Nat => (q.1, NNTree.kd q.2.1, q.2.2))
        ((kd_lawful hb f).des_ok x (vdef (btTys f), .nil) pre post ⟨hv.1, hv.2.1⟩ trivial)
    | none => exact hv.elim
    | ball x => exact hv.elim
  · by_cases h2 : algo = 2
    · simp only [ValidNN, encNN, nnTreeCodec, if_neg h1, if_pos h2] at hv ⊢
      cases t with
      | ball x =>
        exact congrArg (fun q : St × BallTree f × Nat => (q.1, NNTree.ball q.2.1, q.2.2))
          ((ball_lawful hb f).des_ok x (vdef (btTys f), .nil) pre post ⟨hv.1, hv.2.1⟩ trivial)
      | none => exact hv.elim
      | kd x => exact hv.elim
    · simp only [ValidNN, encNN, nnTreeCodec, if_neg h1, if_neg h2, List.length_nil, Nat.add_zero] at hv ⊢
      rw [hv, hi]

theorem nnTree_lawful (algo : Int) : Lawful bits (nnTreeCodec bits f algo) (encNN algo) (ValidNN bits f algo) (fun t => t = .none) where
  size_ok t n hv h := by
    by_cases h1 : algo = 1
    · simp only [ValidNN, encNN, nnTreeCodec, if_pos h1] at hv h ⊢
      cases t with
      | kd x => exact (kd_lawful hb f).size_ok x n ⟨hv.1, hv.2.1⟩ h
      | _ => exact hv.elim
    · by_cases h2 : algo = 2
      · simp only [ValidNN, encNN, nnTreeCodec, if_neg h1, if_pos h2] at hv h ⊢
        cases t with
        | ball x => exact (ball_lawful hb f).size_ok x n ⟨hv.1, hv.2.1⟩ h
        | _ => exact hv.elim
      · simp only [ValidNN, encNN, nnTreeCodec, if_neg h1, if_neg h2, List.length_nil, Nat.add_zero]
  ser_ok size t buf hv h := by
    by_cases h1 : algo = 1
    · simp only [ValidNN, encNN, nnTreeCodec, if_pos h1] at hv h ⊢
      cases t with
      | kd x => exact (kd_lawful hb f).ser_ok size x buf ⟨hv.1, hv.2.1⟩ h
      | _ => exact hv.elim
    · by_cases h2 : algo = 2
      · simp only [ValidNN, encNN, nnTreeCodec, if_neg h1, if_pos h2] at hv h ⊢
        cases t with
        | ball x => exact (ball_lawful hb f).ser_ok size x buf ⟨hv.1, hv.2.1⟩ h
        | _ => exact hv.elim
      · simp only [ValidNN, encNN, nnTreeCodec, if_neg h1, if_neg h2, List.append_nil]
  ser_len size t buf h := by
    by_cases h1 : algo = 1
    · simp only [nnTreeCodec, if_pos h1]
      cases t with
      | kd x => exact (kd_lawful hb f).ser_len size x buf h
      | _ => exact h
    · by_cases h2 : algo = 2
      · simp only [nnTreeCodec, if_neg h1, if_pos h2]
        cases t with
        | ball x => exact (ball_lawful hb f).ser_len size x buf h
        | _ => exact h
      · simp only [nnTreeCodec, if_neg h1, if_neg h2]; exact h
  des_ok t init pre post hv hi := nnTree_des hb f algo t init pre post hv hi

theorem nnTree_ss (algo : Int) : SerStrict bits (nnTreeCodec bits f algo) (encNN algo) (ValidNN bits f algo) where
  size_le t n h := by
    by_cases h1 : algo = 1
    · simp only [nnTreeCodec, if_pos h1]
      cases t with
      | kd x => exact (kd_ss hb f).size_le x n h
      | _ => exact h
    · by_cases h2 : algo = 2
      · simp only [nnTreeCodec, if_neg h1, if_pos h2]
        cases t with
        | ball x => exact (ball_ss hb f).size_le x n h
        | _ => exact h
      · simp only [nnTreeCodec, if_neg h1, if_neg h2]; exact h
  ser_fail size t buf hv h0 h := by
    by_cases h1 : algo = 1
    · simp only [ValidNN, encNN, nnTreeCodec, if_pos h1] at hv h ⊢
      cases t with
      | kd x => exact (kd_ss hb f).ser_fail size x buf hv h0 h
      | _ => exact hv.elim
    · by_cases h2 : algo = 2
      · simp only [ValidNN, encNN, nnTreeCodec, if_neg h1, if_pos h2] at hv h ⊢
        cases t with
        | ball x => exact (ball_ss hb f).ser_fail size x buf hv h0 h
        | _ => exact hv.elim
      · simp only [encNN, if_neg h1, if_neg h2, List.length_nil, Nat.add_zero] at h
        exact absurd h0 h

theorem obj_lawful : ∀ k, k ≠ .other → Lawful bits (codec bits m k f) (encObj k f) (ValidObj bits m k f) (InitObj k f)
  | .linmod, _ => fields_lawful hb _
  | .pca, _ => fields_lawful hb _
  | .kmeans, _ => fields_lawful hb _
  | .ann, _ => fields_lawful hb _
  | .kpca, _ => fields_lawful hb _
  | .tree, _ => dt_lawful hb f m
  | .forest, _ => lawful_weaken (items_lawful (fields_lawful hb _) (dt_lawful hb f m)
      (fun _ _ => ⟨List.length_replicate, fun _ _ => trivial⟩)) (fun _ h => h) (fun _ _ => trivial)
  | .svm, _ => lawful_weaken (items_lawful (fields_lawful hb _) (guarded_lawful (fields_lawful hb _))
      (fun _ _ => ⟨List.length_replicate, fun _ _ => trivial⟩)) (fun _ h => h) (fun _ _ => trivial)
  | .nn, _ => lawful_weaken (dep_lawful (fields_lawful hb (nnTys f)) (fun a => nnTree_lawful hb f (vint (nnTys f) a 13)))
      (fun _ h => h) (fun _ h => ⟨trivial, h⟩)
  | .other, h => absurd rfl h

theorem obj_ss : ∀ k, k ≠ .other → SerStrict bits (codec bits m k f) (encObj k f) (ValidObj bits m k f)
  | .linmod, _ => fields_ss hb _
  | .pca, _ => fields_ss hb _
  | .kmeans, _ => fields_ss hb _
  | .ann, _ => fields_ss hb _
  | .kpca, _ => fields_ss hb _
  | .tree, _ => dt_ss hb f m
  | .forest, _ => items_ss (fields_lawful hb _) (fields_ss hb _) (dt_lawful hb f m) (dt_ss hb f m)
  | .svm, _ => items_ss (fields_lawful hb _) (fields_ss hb _) (guarded_lawful (fields_lawful hb _)) (guarded_ss (fields_ss hb _))
  | .nn, _ => dep_ss (fields_lawful hb (nnTys f)) (fields_ss hb _) (fun a => nnTree_ss hb f (vint (nnTys f) a 13))
  | .other, h => absurd rfl h

/-- All kinds but the nearest neighbours report a file that was cut short. -/
theorem obj_strict : ∀ k, k ≠ .other → k ≠ .nn → Strict bits (codec bits m k f) (encObj k f) (ValidObj bits m k f) (InitObj k f)
  | .linmod, _, _ => fields_strict hb _
  | .pca, _, _ => fields_strict hb _
  | .kmeans, _, _ => fields_strict hb _
  | .ann, _, _ => fields_strict hb _
  | .kpca, _, _ => fields_strict hb _
  | .tree, _, _ => dt_strict hb f m
  | .forest, _, _ => strict_weaken (items_strict (fields_lawful hb _) (fields_strict hb _) (dt_lawful hb f m) (dt_strict hb f m)
      (fun _ _ => ⟨List.length_replicate, fun _ _ => trivial⟩)) (fun _ _ => trivial)
  | .svm, _, _ => strict_weaken (items_strict (fields_lawful hb _) (fields_strict hb _) (guarded_lawful (fields_lawful hb _))
      (guarded_strict (fields_strict hb _))
      (fun _ _ => ⟨List.length_replicate, fun _ _ => trivial⟩)) (fun _ _ => trivial)
  | .nn, _, h => absurd rfl h
  | .other, h, _ => absurd rfl h

end

/-- Nearest neighbours without trees too. -/
theorem nn_trunc {bits : Nat} (hb : Width bits) (f : Sc) (a : Vals (nnTys f)) (t : NNTree f) (init : Vals (nnTys f) × NNTree f)
    (pre : List Byte) (k : Nat) (hv : Valids bits (nnTys f) a) (h1 : vint (nnTys f) a 13 ≠ 1) (h2 : vint (nnTys f) a 13 ≠ 2)
    (hk : k < (encObj .nn f (a, t)).length) :
    ((nnCodec bits f).des (pre ++ (encObj .nn f (a, t)).take k) init pre.length).1 = .invalidFile := by
  simp only [encObj, encNN, if_neg h1, if_neg h2, List.append_nil] at hk ⊢
  have h3 := (fields_strict hb (nnTys f)).des_trunc a init.1 pre k hv trivial hk
  simp only [nnCodec, dep]
  cases hr : (fields bits (nnTys f)).des (pre ++ List.take k (encs (nnTys f) a)) init.1 pre.length with
  | mk s q =>
    rw [hr] at h3
    simp only at h3
    subst h3
    rfl

/-- The failures of the readers: refused, memory, unknown model, or an exception. -/
def Refused (s : St) : Prop :=
  s = .ok ∨ s = .invalidFile ∨ s = .memory ∨ s = .unknownQuery ∨ s = .exc

theorem safe_weaken {bits : Nat} {α : Type} {c : Codec α} {A B : St → Prop} (h : Safe bits c A) (hs : ∀ s, A s → B s) : Safe bits c B :=
  fun bytes init off hl ho => ⟨hs _ (h bytes init off hl ho).1, (h bytes init off hl ho).2⟩

theorem plain_refused : ∀ s, Plain s → Refused s := by
  rintro s (rfl | rfl) <;> simp [Refused]

theorem kd_safe (bits : Nat) (f : Sc) : Safe bits (kdCodec bits f) Plain :=
  btree_safe (fields_safe bits _) (fields_safe bits (kdNodeTys f)) (fields_grows _ _) _

theorem ball_safe (bits : Nat) (f : Sc) : Safe bits (ballCodec bits f) Plain :=
  btree_safe (fields_safe bits _) (fields_safe bits (ballNodeTys f)) (fields_grows _ _) _

theorem nnTree_safe (bits : Nat) (f : Sc) (algo : Int) : Safe bits (nnTreeCodec bits f algo) Plain := by
  intro bytes t off hl ho
  by_cases h1 : algo = 1
  · simp only [nnTreeCodec, if_pos h1]
    exact kd_safe bits f bytes (vdef (btTys f), .nil) off hl ho
  · by_cases h2 : algo = 2
    · simp only [nnTreeCodec, if_neg h1, if_pos h2]
      exact ball_safe bits f bytes (vdef (btTys f), .nil) off hl ho
    · simp only [nnTreeCodec, if_neg h1, if_neg h2]
      exact ⟨Or.inl rfl, Nat.le_refl _, ho⟩

theorem dt_safe (bits : Nat) (f : Sc) (m : Mach) : Safe bits (dtCodec bits f m) Refused :=
  items_safe (safe_weaken (fields_safe bits _) plain_refused) (safe_weaken (fields_safe bits _) plain_refused) (Or.inl rfl)
    (fun a => by simp only [dtItems]; split <;> simp [Refused]) (fun _ => Or.inl rfl) (by simp [Refused]) (by simp [Refused])

theorem obj_safe (bits : Nat) (m : Mach) (f : Sc) : ∀ k, k ≠ .other → Safe bits (codec bits m k f) Refused
  | .linmod, _ => safe_weaken (fields_safe bits _) plain_refused
  | .pca, _ => safe_weaken (fields_safe bits _) plain_refused
  | .kmeans, _ => safe_weaken (fields_safe bits _) plain_refused
  | .ann, _ => safe_weaken (fields_safe bits _) plain_refused
  | .kpca, _ => safe_weaken (fields_safe bits _) plain_refused
  | .tree, _ => dt_safe bits f m
  | .forest, _ => items_safe (safe_weaken (fields_safe bits _) plain_refused) (dt_safe bits f m) (Or.inl rfl)
      (fun _ => Or.inl rfl) (fun _ => Or.inl rfl) (by simp [Refused]) (by simp [Refused])
  | .svm, _ => items_safe (safe_weaken (fields_safe bits _) plain_refused)
      (guarded_safe (safe_weaken (fields_safe bits _) plain_refused) (fun a => by simp only [kernelCheck]; split <;> simp [Refused]))
      (Or.inl rfl) (fun _ => Or.inl rfl) (fun a => by simp only [svmItems]; split <;> simp [Refused]) (by simp [Refused]) (by simp [Refused])
  | .nn, _ => safe_weaken (dep_safe (fields_safe bits (nnTys f)) (fun a => nnTree_safe bits f _)) plain_refused
  | .other, h => absurd rfl h

/-- Everything that a reader with a narrower `da_int` could have written is fine for a wider one. -/
theorem validBT_mono {bits bits' : Nat} (h : bits ≤ bits') {ν : Type} {P P' : ν → Prop} (hP : ∀ v, P v → P' v) {n : Nat} :
    ∀ t : BT ν, ValidBT bits P n t → ValidBT bits' P' n t := by
  intro t
  induction t with
  | nil => intro _; trivial
  | node ofs v l r ihl ihr =>
    rintro ⟨a, b, c, d, e, g⟩
    exact ⟨a, b, valid_mono h _ _ c, hP v d, ihl e, ihr g⟩

theorem itemsValid_mono {α β : Type} {it : Items α β} {P P' : α → Prop} {Q Q' : β → Prop} (hP : ∀ a, P a → P' a) (hQ : ∀ a, Q a → Q' a) :
    ∀ p, ItemsValid it P Q p → ItemsValid it P' Q' p := by
  rintro p ⟨a, b, c⟩
  exact ⟨hP _ a, fun x hx => hQ x (b x hx), c⟩

theorem validObj_mono {bits bits' : Nat} (h : bits ≤ bits') (m : Mach) (f : Sc) : ∀ k a, ValidObj bits m k f a → ValidObj bits' m k f a
  | .linmod, a, hv => valids_mono h _ a hv
  | .pca, a, hv => valids_mono h _ a hv
  | .kmeans, a, hv => valids_mono h _ a hv
  | .ann, a, hv => valids_mono h _ a hv
  | .kpca, a, hv => valids_mono h _ a hv
  | .tree, a, hv => itemsValid_mono (valids_mono h _) (valids_mono h _) a hv
  | .forest, a, hv => itemsValid_mono (valids_mono h _) (itemsValid_mono (valids_mono h _) (valids_mono h _)) a hv
  | .svm, a, hv => itemsValid_mono (valids_mono h _) (fun x hx => ⟨valids_mono h _ x hx.1, hx.2⟩) a hv
  | .nn, a, hv => by
    refine ⟨valids_mono h _ _ hv.1, ?_⟩
    have h2 := hv.2
    simp only [ValidNN] at h2 ⊢
    split
    · rename_i h3
      rw [if_pos h3] at h2
      split at h2
      · exact ⟨valids_mono h _ _ h2.1, validBT_mono h (valids_mono h _) _ h2.2.1, h2.2.2⟩
      · exact h2.elim
    · rename_i h3
      rw [if_neg h3] at h2
      split
      · rename_i h4
        rw [if_pos h4] at h2
        split at h2
        · exact ⟨valids_mono h _ _ h2.1, validBT_mono h (valids_mono h _) _ h2.2.1, h2.2.2⟩
        · exact h2.elim
      · rename_i h4
        rw [if_neg h4] at h2
        exact h2
  | .other, _, hv => hv.elim

theorem fresh_init : ∀ k f, k ≠ .other → InitObj k f (freshObj k f)
  | .linmod, _, _ => trivial
  | .pca, _, _ => trivial
  | .kmeans, _, _ => trivial
  | .ann, _, _ => trivial
  | .kpca, _, _ => trivial
  | .tree, _, _ => trivial
  | .forest, _, _ => trivial
  | .svm, _, _ => trivial
  | .nn, _, _ => rfl
  | .other, _, h => absurd rfl h

/-! ### Files -/

def fileEnc (bits : Nat) (k : Kind) (f : Sc) (m : Meta) (r : Reg) (a : Obj k f) : List Byte :=
  metaEnc bits m ++ regEnc r ++ encObj k f a

variable {bits : Nat}

/-- If the handle fits, it is saved, and the reserved size is the size of the file. -/
theorem saveFile_ok (hb : Width bits) (mach : Mach) (k : Kind) (hk : k ≠ .other) (f : Sc) (m : Meta) (r : Reg) (a : Obj k f)
    (hm : MetaValid bits m) (ha : ValidObj bits mach k f a)
    (hl : (fileEnc bits k f m r a).length ≤ imax bits) :
    saveFile bits (codec bits mach k f) m r a = (.ok, fileEnc bits k f m r a, (fileEnc bits k f m r a).length) := by
  simp only [fileEnc, List.length_append] at hl
  have h0 := metaSize_eq bits m
  have h1 := (obj_lawful hb f mach k hk).size_ok a (metaSize m) ha (by omega)
  have h2 : addSize bits (metaSize m + (encObj k f a).length) (regSize r) =
      (.ok, (fileEnc bits k f m r a).length) := by
    rw [regSize_eq, addSize_ok (by omega)]
    simp only [fileEnc, List.length_append]
    rw [h0]
    congr 1
    omega
  simp only [saveFile]
  rw [h1]
  dsimp only
  rw [h2]
  dsimp only
  rw [metaSer_ok hb hm [] (by simp only [fileEnc, List.length_append, List.length_nil]; omega)]
  dsimp only
  rw [regSer_ok r _ (by simp only [fileEnc, List.length_append, List.length_nil]; omega)]
  dsimp only
  have h3 := (obj_lawful hb f mach k hk).ser_ok (fileEnc bits k f m r a).length a ([] ++ metaEnc bits m ++ regEnc r) ha
    (by simp only [fileEnc, List.length_append, List.length_nil]; omega)
  exact congrArg (fun q : St × List Byte => (q.1, q.2, (fileEnc bits k f m r a).length)) h3

/-- A successful save writes the encoding, and exactly the reserved size.  (The reserved size could
only be too small, if counting it overflowed.) -/
theorem saveFile_enc (hb : Width bits) (mach : Mach) (k : Kind) (hk : k ≠ .other) (f : Sc) (m : Meta) (r : Reg) (a : Obj k f)
    (hm : MetaValid bits m) (ha : ValidObj bits mach k f a)
    (h : (saveFile bits (codec bits mach k f) m r a).1 = .ok) :
    saveFile bits (codec bits mach k f) m r a = (.ok, fileEnc bits k f m r a, (fileEnc bits k f m r a).length) := by
  refine saveFile_ok hb mach k hk f m r a hm ha ?_
  simp only [saveFile] at h
  have h1 := (obj_ss hb f mach k hk).size_le a (metaSize m) hm.2.2
  cases hs : (codec bits mach k f).size a (metaSize m) with
  | mk s n1 =>
    rw [hs] at h h1
    cases s <;> simp only [reduceCtorEq] at h
    have h2 : (addSize bits n1 (regSize r)).2 ≤ imax bits := addSize_le h1
    generalize (addSize bits n1 (regSize r)).2 = n2 at h h2
    refine Nat.le_trans ?_ h2
    by_cases h3 : ([] : List Byte).length + (metaEnc bits m).length ≤ n2
    · rw [metaSer_ok hb hm [] h3] at h
      dsimp only at h
      by_cases h4 : ([] ++ metaEnc bits m).length + (regEnc r).length ≤ n2
      · rw [regSer_ok r _ h4] at h
        dsimp only at h
        by_cases h5 : ([] ++ metaEnc bits m ++ regEnc r).length + (encObj k f a).length ≤ n2
        · simpa [fileEnc, Nat.add_assoc] using h5
        · exact absurd h ((obj_ss hb f mach k hk).ser_fail n2 a _ ha (by simpa using h4) h5)
      · have h6 := (regSer_fail r ([] ++ metaEnc bits m) (by simpa using h3) h4).1
        cases hr : regSer n2 r ([] ++ metaEnc bits m) with
        | mk s b => rw [hr] at h h6; simp only at h6; subst h6; simp at h
    · have h6 := metaSer_fail hb hm [] (Nat.zero_le _) h3
      cases hr : metaSer bits n2 m [] with
      | mk s b =>
        rw [hr] at h h6
        cases s <;> simp at h h6

/-- Whatever the handle holds, saving never writes more than was reserved. -/
theorem saveFile_len (hb : Width bits) (mach : Mach) (k : Kind) (f : Sc) (m : Meta) (r : Reg) (a : Obj k f) :
    (saveFile bits (codec bits mach k f) m r a).2.1.length ≤ (saveFile bits (codec bits mach k f) m r a).2.2 := by
  simp only [saveFile]
  cases hs : (codec bits mach k f).size a (metaSize m) with
  | mk s n1 =>
    cases s <;> try exact Nat.zero_le _
    dsimp only
    generalize (addSize bits n1 (regSize r)).2 = n2
    have h1 := metaSer_len hb (size := n2) m [] (Nat.zero_le _)
    cases hm : metaSer bits n2 m [] with
    | mk s b1 =>
      rw [hm] at h1
      cases s <;> try exact h1
      dsimp only at h1 ⊢
      have h2 := regSer_len r b1 h1
      cases hr : regSer n2 r b1 with
      | mk s b2 =>
        rw [hr] at h2
        cases s <;> try exact h2
        dsimp only at h2 ⊢
        by_cases hk : k = .other
        · subst hk; exact h2
        · exact (obj_lawful hb f mach k hk).ser_len n2 a b2 h2

theorem metaEnc_ne (m : Meta) : metaEnc bits m ≠ [] := by
  intro h
  have := congrArg List.length h
  rw [← metaSize_eq] at this
  simp [metaSize] at this

/-- Reading the file that was written (and anything behind it). -/
theorem loadFile_ok {bits' : Nat} (hb : Width bits) (hb' : Width bits') (hw : WidthOk bits bits') (mach : Mach)
    (regs : Int → Int → Reg) (k : Kind) (hk : k ≠ .other) (m : Meta) (r : Reg) (a : Obj k (realOf m.prec)) (post : List Byte)
    (hm : MetaValid bits m) (ht : kindOf m.typ = some k) (hr : RegValid bits r) (hn : (r.map (·.1)).Nodup)
    (hc : Compat (regs m.typ m.prec) r) (ha : ValidObj bits mach k _ a) :
    loadFile bits' mach regs (fileEnc bits k _ m r a ++ post) =
      (.ok, some ⟨k, realOf m.prec, setAll (regs m.typ m.prec) r, a⟩) := by
  have hr' : RegValid bits' r := by
    have hle := width_le hb hb' hw
    refine ⟨Nat.le_trans hr.1 ?_, fun p hp => ⟨valid_mono hle _ _ (hr.2 p hp).1, valid_mono hle _ _ (hr.2 p hp).2⟩⟩
    have := Nat.pow_le_pow_right (n := 2) (by omega) (show bits - 1 ≤ bits' - 1 by omega)
    simp only [imax]; omega
  have h1 := metaDes_ok hb hb' hw hm [] (regEnc r ++ encObj k _ a ++ post)
  have h2 := regDes_ok hb' r (regs m.typ m.prec) (metaEnc bits m) (encObj k _ a ++ post) hc hn hr'
  have h3 := (obj_lawful hb' (realOf m.prec) mach k hk).des_ok a (freshObj k _) (metaEnc bits m ++ regEnc r) post
    (validObj_mono (width_le hb hb' hw) mach _ k a ha) (fresh_init k _ hk)
  simp only [List.nil_append, List.append_assoc, List.length_append, List.length_nil, Nat.zero_add] at h1 h2 h3
  simp only [loadFile, fileEnc, List.append_assoc]
  rw [if_neg (by simp [metaEnc_ne]), h1]
  dsimp only
  rw [ht]
  dsimp only
  rw [if_neg (by simp), h2]
  dsimp only
  exact congrArg (fun q : St × Obj k (realOf m.prec) × Nat =>
    (q.1, some (⟨k, realOf m.prec, setAll (regs m.typ m.prec) r, q.2.1⟩ : Loaded))) h3

/-- The three parts of a file cut short. -/
theorem loadFile_cut {bits' : Nat} (hb : Width bits) (hb' : Width bits') (hw : WidthOk bits bits') (mach : Mach)
    (regs : Int → Int → Reg) (k : Kind) (m : Meta) (r : Reg) (a : Obj k (realOf m.prec)) (n : Nat)
    (hm : MetaValid bits m) (ht : kindOf m.typ = some k) (hr : RegValid bits r) (hn : (r.map (·.1)).Nodup)
    (hc : Compat (regs m.typ m.prec) r) (h0 : 0 < n) (hl : n < (fileEnc bits k _ m r a).length)
    (hobj : ∀ j, j < (encObj k _ a).length → n = (metaEnc bits m ++ regEnc r).length + j →
      ((codec bits' mach k (realOf m.prec)).des (metaEnc bits m ++ regEnc r ++ (encObj k _ a).take j) (freshObj _ _) (metaEnc bits m ++ regEnc r).length).1 = .invalidFile) :
    (loadFile bits' mach regs ((fileEnc bits k _ m r a).take n)).1 = .invalidFile := by
  have hr' : RegValid bits' r := by
    have hle := width_le hb hb' hw
    refine ⟨Nat.le_trans hr.1 ?_, fun p hp => ⟨valid_mono hle _ _ (hr.2 p hp).1, valid_mono hle _ _ (hr.2 p hp).2⟩⟩
    have := Nat.pow_le_pow_right (n := 2) (by omega) (show bits - 1 ≤ bits' - 1 by omega)
    simp only [imax]; omega
  have hne : (fileEnc bits k _ m r a).take n ≠ [] := by
    intro h
    have := congrArg List.length h
    simp only [List.length_take, List.length_nil] at this
    omega
  simp only [fileEnc, List.length_append] at hl
  rw [loadFile, if_neg hne]
  rw [fileEnc, List.append_assoc, List.take_append]
  by_cases h1 : n < (metaEnc bits m).length
  · rw [show n - (metaEnc bits m).length = 0 by omega, List.take_zero, List.append_nil]
    have h2 := metaDes_trunc hb hb' hw hm [] n h1
    simp only [List.nil_append, List.length_nil] at h2
    cases hq : metaDes bits' ((metaEnc bits m).take n) 0 with
    | mk s q => rw [hq] at h2; simp only at h2; subst h2; rfl
  · rw [List.take_of_length_le (Nat.le_of_not_lt h1)]
    generalize hj : n - (metaEnc bits m).length = j
    have h2 := metaDes_ok hb hb' hw hm [] ((regEnc r ++ encObj k _ a).take j)
    simp only [List.nil_append, List.length_nil, Nat.zero_add] at h2
    rw [h2]
    dsimp only
    rw [ht]
    dsimp only
    rw [if_neg (by simp), List.take_append]
    by_cases h3 : j < (regEnc r).length
    · rw [show j - (regEnc r).length = 0 by omega, List.take_zero, List.append_nil]
      have h4 := regDes_trunc hb' r (regs m.typ m.prec) (metaEnc bits m) j hc hn hr' h3
      cases hq : regDes bits' (metaEnc bits m ++ (regEnc r).take j) (regs m.typ m.prec) (metaEnc bits m).length with
      | mk s q => rw [hq] at h4; simp only at h4; subst h4; rfl
    · rw [List.take_of_length_le (Nat.le_of_not_lt h3)]
      generalize hi : j - (regEnc r).length = i
      have h4 := regDes_ok hb' r (regs m.typ m.prec) (metaEnc bits m) ((encObj k _ a).take i) hc hn hr'
      simp only [List.append_assoc] at h4
      rw [h4]
      dsimp only
      have h5 := hobj i (by omega) (by simp only [List.length_append]; omega)
      simp only [List.append_assoc, List.length_append] at h5
      exact h5

end Verif.Persist
