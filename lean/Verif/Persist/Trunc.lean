import Verif.Persist.ObjProof
set_option linter.unusedSimpArgs false
namespace Verif.Persist

/-- Fewer than eight bytes are not enough. -/
def Needs8 {α : Type} (c : Codec α) : Prop :=
  ∀ bytes init off, bytes.length < off + 8 → (c.des bytes init off).1 = .invalidFile

theorem fields_needs8 {bits : Nat} (ts : List Ty) : Needs8 (fields bits (ti :: ts)) := by
  rintro bytes ⟨a, b⟩ off h
  simp only [fields, seq, field, des]
  rw [if_pos (by simp only [Sc.size]; omega)]

section
variable {bits : Nat} {ν : Type} {c : Codec ν} {e : ν → List Byte} {P : ν → Prop}

theorem btDes_trunc (hb : Width bits) (hc : Lawful bits c e P (Any ν)) (hc' : Strict bits c e P (Any ν)) (h8 : Needs8 c) (dv : ν) {nidx : Nat} :
    ∀ (t : BT ν) (pre : List Byte) (k fuel : Nat), ValidBT bits P nidx t → k < (encBT e t).length → k < fuel →
      (btDes bits c dv nidx (pre ++ (encBT e t).take k) fuel .nil pre.length).1 = .invalidFile := by
  intro t
  induction t with
  | nil =>
    intro pre k fuel _ hk hf
    simp only [encBT, leBytes_length] at hk
    obtain rfl : k = 0 := by omega
    cases fuel with
    | zero => omega
    | succ fuel =>
      rw [btDes]
      have h1 := des_trunc hb (.sc .bool) (false : Bool) (BT.nil (ν := ν)).exists pre 0 trivial (by simp [enc_sc, encode_length, Sc.size])
      simp only [List.take_zero, List.append_nil, des, Sc.size] at h1 ⊢
      rw [if_pos (by omega)]
      rfl
  | node ofs v l r ihl ihr =>
    intro pre k fuel hv hk hf
    obtain ⟨h0, h1, h2, hp, hl, hr⟩ := hv
    cases fuel with
    | zero => omega
    | succ fuel =>
      have e1 : encBT e (.node ofs v l r) = enc (.sc .bool) true ++ (enc (.sc .int) ofs ++ (e v ++ (encBT e l ++ encBT e r))) := by
        simp only [encBT, enc_sc, List.append_assoc]; rfl
      have l1 : (enc (.sc .bool) true).length = 1 := by simp [enc_sc, encode_length, Sc.size]
      have l2 : (enc (.sc .int) ofs).length = 8 := by simp [enc_sc, encode_length, Sc.size]
      rw [e1] at hk ⊢
      simp only [List.length_append] at hk
      by_cases k1 : k = 0
      · subst k1
        rw [btDes]
        simp only [List.take_zero, List.append_nil, des, Sc.size]
        rw [if_pos (by omega)]
        rfl
      · rw [List.take_append, List.take_of_length_le (by omega)]
        have b1 := des_ok hb (.sc .bool) true (BT.nil (ν := ν)).exists pre
          ((enc (.sc .int) ofs ++ (e v ++ (encBT e l ++ encBT e r))).take (k - (enc (.sc .bool) true).length)) trivial
        rw [List.append_assoc] at b1
        rw [btDes, b1]
        dsimp only
        rw [if_pos rfl]
        by_cases k2 : k < 9
        · -- the offset is incomplete: it stays zero and the node fails
          rw [List.take_append_of_le_length (by omega)]
          have b2 := des_trunc hb (.sc .int) ofs (0 : Int) (pre ++ enc (.sc .bool) true) (k - 1) h2 (by omega)
          have b3 : des bits (pre ++ (enc (.sc .bool) true ++ (enc (.sc .int) ofs).take (k - (enc (.sc .bool) true).length))) (.sc .int) (0 : Int)
              (pre.length + (enc (.sc .bool) true).length) = (.invalidFile, (0 : Int), pre.length + (enc (.sc .bool) true).length) := by
            rw [des, if_pos]
            simp only [List.length_append, List.length_take, Sc.size, l1, l2]
            omega
          rw [b3]
          dsimp only
          split
          · rfl
          · have b4 := h8 (pre ++ (enc (.sc .bool) true ++ (enc (.sc .int) ofs).take (k - (enc (.sc .bool) true).length)))
              ((BT.nil (ν := ν)).data dv) (pre.length + (enc (.sc .bool) true).length)
              (by simp only [List.length_append, List.length_take, l1, l2]; omega)
            cases hq : c.des (pre ++ (enc (.sc .bool) true ++ (enc (.sc .int) ofs).take (k - (enc (.sc .bool) true).length)))
              ((BT.nil (ν := ν)).data dv) (pre.length + (enc (.sc .bool) true).length) with
            | mk s q => rw [hq] at b4; simp only at b4; subst b4; rfl
        · rw [List.take_append, List.take_of_length_le (l := enc (.sc .int) ofs) (by omega)]
          generalize hj : k - (enc (.sc .bool) true).length - (enc (.sc .int) ofs).length = j
          have b2 := des_ok hb (.sc .int) ofs (0 : Int) (pre ++ enc (.sc .bool) true) ((e v ++ (encBT e l ++ encBT e r)).take j) h2
          simp only [List.append_assoc, List.length_append] at b2
          rw [b2]
          dsimp only
          have hn : ¬ (@LT.lt Int _ ofs 0 ∨ ofs.toNat ≥ nidx) := by omega
          rw [if_neg hn, List.take_append]
          by_cases k3 : j < (e v).length
          · rw [show j - (e v).length = 0 by omega, List.take_zero, List.append_nil]
            have b4 := hc'.des_trunc v ((BT.nil (ν := ν)).data dv) (pre ++ enc (.sc .bool) true ++ enc (.sc .int) ofs) j hp trivial k3
            simp only [List.append_assoc, List.length_append] at b4
            simp only [Nat.add_assoc] at b4 ⊢
            cases hq : c.des (pre ++ (enc (.sc .bool) true ++ (enc (.sc .int) ofs ++ (e v).take j)))
              ((BT.nil (ν := ν)).data dv) (pre.length + ((enc (.sc .bool) true).length + (enc (.sc .int) ofs).length)) with
            | mk s q => rw [hq] at b4; simp only at b4; subst b4; rfl
          · rw [List.take_of_length_le (l := e v) (by omega)]
            generalize hi : j - (e v).length = i
            have b4 := hc.des_ok v ((BT.nil (ν := ν)).data dv) (pre ++ enc (.sc .bool) true ++ enc (.sc .int) ofs)
              ((encBT e l ++ encBT e r).take i) hp trivial
            simp only [List.append_assoc, List.length_append] at b4
            simp only [Nat.add_assoc] at b4 ⊢
            rw [b4]
            dsimp only
            rw [List.take_append]
            by_cases k4 : i < (encBT e l).length
            · rw [show i - (encBT e l).length = 0 by omega, List.take_zero, List.append_nil]
              have b5 := ihl (pre ++ enc (.sc .bool) true ++ enc (.sc .int) ofs ++ e v) i fuel hl k4 (by omega)
              simp only [List.append_assoc, List.length_append] at b5
              simp only [BT.left, BT.right, Nat.add_assoc] at b5 ⊢
              cases hq : btDes bits c dv nidx (pre ++ (enc (.sc .bool) true ++ (enc (.sc .int) ofs ++ (e v ++ (encBT e l).take i)))) fuel .nil
                (pre.length + ((enc (.sc .bool) true).length + ((enc (.sc .int) ofs).length + (e v).length))) with
              | mk s q => rw [hq] at b5; simp only at b5; subst b5; rfl
            · rw [List.take_of_length_le (l := encBT e l) (by omega)]
              have b5 := btDes_ok hb hc dv l .nil (pre ++ enc (.sc .bool) true ++ enc (.sc .int) ofs ++ e v)
                ((encBT e r).take (i - (encBT e l).length)) fuel hl (by omega)
              simp only [List.append_assoc, List.length_append] at b5
              simp only [BT.left, BT.right, Nat.add_assoc] at b5 ⊢
              rw [b5]
              dsimp only
              have b6 := ihr (pre ++ enc (.sc .bool) true ++ enc (.sc .int) ofs ++ e v ++ encBT e l) (i - (encBT e l).length) fuel hr (by omega) (by omega)
              simp only [List.append_assoc, List.length_append] at b6
              try simp only [Nat.add_assoc] at b6 ⊢
              exact b6

theorem btree_trunc {hts : List Ty} {nidx : Vals hts → Nat} (hb : Width bits) (hc : Lawful bits c e P (Any ν)) (hc' : Strict bits c e P (Any ν))
    (h8 : Needs8 c) (dv : ν) (a : Vals hts) (t : BT ν) (init : Vals hts) (pre : List Byte) (k : Nat) (ha : Valids bits hts a)
    (ht : ValidBT bits P (nidx a) t) (hk : k < (encs hts a ++ encBT e t).length) (hk' : (encs hts a).length ≤ k) :
    ((btree bits (fields bits hts) c dv nidx).des (pre ++ (encs hts a ++ encBT e t).take k) (init, .nil) pre.length).1 = .invalidFile := by
  rw [List.take_append, List.take_of_length_le (l := encs hts a) hk']
  generalize hj : k - (encs hts a).length = j
  simp only [List.length_append] at hk
  have h1 := (fields_lawful hb hts).des_ok a init pre ((encBT e t).take j) ha trivial
  have h2 := btDes_trunc hb hc hc' h8 dv t (pre ++ encs hts a) j ((pre ++ (encs hts a ++ (encBT e t).take j)).length + 2) ht (by omega)
    (by simp only [List.length_append, List.length_take]; omega)
  simp only [List.append_assoc, List.length_append] at h1 h2
  simp only [btree, h1, List.length_append]
  exact h2

end

/-- Positions inside the header of a tree: the members in front of the nodes. -/
def InTreeHeader (f : Sc) (p : Vals (nnTys f) × NNTree f) (k : Nat) : Prop :=
  (encs (nnTys f) p.1).length ≤ k ∧
    match p.2 with
    | .none => False
    | .kd x => k < (encs (nnTys f) p.1).length + (encs (btTys f) x.1).length
    | .ball x => k < (encs (nnTys f) p.1).length + (encs (btTys f) x.1).length

/-- Cut inside the header of a tree: `j` bytes of the object are left. -/
def CutInTreeHeader (f : Sc) : (k : Kind) → Obj k f → Nat → Prop
  | .nn, p, j => InTreeHeader f p j
  | _, _, _ => False

theorem kd_trunc {bits : Nat} (hb : Width bits) (f : Sc) (x : KdTree f) (pre : List Byte) (j : Nat) (ha : Valids bits (btTys f) x.1)
    (ht : ValidBT bits (Valids bits (kdNodeTys f)) (vlen (btTys f) x.1 1) x.2) (hk : j < (encKd x).length) (hk' : (encs (btTys f) x.1).length ≤ j) :
    ((kdCodec bits f).des (pre ++ (encKd x).take j) (vdef (btTys f), .nil) pre.length).1 = .invalidFile :=
  btree_trunc hb (fields_lawful hb _) (fields_strict hb _) (fields_needs8 _) _ x.1 x.2 _ pre j ha ht hk hk'

theorem ball_trunc {bits : Nat} (hb : Width bits) (f : Sc) (x : BallTree f) (pre : List Byte) (j : Nat) (ha : Valids bits (btTys f) x.1)
    (ht : ValidBT bits (Valids bits (ballNodeTys f)) (vlen (btTys f) x.1 1) x.2) (hk : j < (encBall x).length) (hk' : (encs (btTys f) x.1).length ≤ j) :
    ((ballCodec bits f).des (pre ++ (encBall x).take j) (vdef (btTys f), .nil) pre.length).1 = .invalidFile :=
  btree_trunc hb (fields_lawful hb _) (fields_strict hb _) (fields_needs8 _) _ x.1 x.2 _ pre j ha ht hk hk'

attribute [local irreducible] kdCodec ballCodec

theorem nnTree_trunc {bits : Nat} (hb : Width bits) (f : Sc) (algo : Int) (t : NNTree f) (pre : List Byte) (j : Nat)
    (hv : ValidNN bits f algo t) (hk : j < (encNN algo t).length)
    (hh : match t with
      | .none => True
      | .kd x => (encs (btTys f) x.1).length ≤ j
      | .ball x => (encs (btTys f) x.1).length ≤ j) :
    ((nnTreeCodec bits f algo).des (pre ++ (encNN algo t).take j) .none pre.length).1 = .invalidFile := by
  by_cases h1 : algo = 1
  · simp only [ValidNN, encNN, nnTreeCodec, if_pos h1] at hv hk ⊢
    cases t with
    | kd x => exact kd_trunc hb f x pre j hv.1 hv.2.1 hk hh
    | none => exact hv.elim
    | ball x => exact hv.elim
  · by_cases h2 : algo = 2
    · simp only [ValidNN, encNN, nnTreeCodec, if_neg h1, if_pos h2] at hv hk ⊢
      cases t with
      | ball x => exact ball_trunc hb f x pre j hv.1 hv.2.1 hk hh
      | none => exact hv.elim
      | kd x => exact hv.elim
    · simp only [encNN, if_neg h1, if_neg h2] at hk
      simp at hk

theorem nn_trunc' {bits : Nat} (hb : Width bits) (f : Sc) (p : Vals (nnTys f) × NNTree f) (init : Vals (nnTys f))
    (pre : List Byte) (k : Nat) (hv : Valids bits (nnTys f) p.1) (hv' : ValidNN bits f (vint (nnTys f) p.1 13) p.2)
    (hk : k < (encObj .nn f p).length) (hh : ¬ InTreeHeader f p k) :
    ((nnCodec bits f).des (pre ++ (encObj .nn f p).take k) (init, .none) pre.length).1 = .invalidFile := by
  obtain ⟨a, t⟩ := p
  simp only [encObj, List.length_append] at hk hv hv' hh ⊢
  rw [List.take_append]
  by_cases h1 : k < (encs (nnTys f) a).length
  · rw [show k - (encs (nnTys f) a).length = 0 by omega, List.take_zero, List.append_nil]
    have h3 := (fields_strict hb (nnTys f)).des_trunc a init pre k hv trivial h1
    simp only [nnCodec, dep]
    cases hr : (fields bits (nnTys f)).des (pre ++ List.take k (encs (nnTys f) a)) init pre.length with
    | mk s q =>
      rw [hr] at h3
      simp only at h3
      subst h3
      rfl
  · rw [List.take_of_length_le (l := encs (nnTys f) a) (by omega)]
    generalize hj : k - (encs (nnTys f) a).length = j
    have h3 := (fields_lawful hb (nnTys f)).des_ok a init pre ((encNN (vint (nnTys f) a 13) t).take j) hv trivial
    have h4 := nnTree_trunc hb f (vint (nnTys f) a 13) t (pre ++ encs (nnTys f) a) j hv' (by omega) (by
      simp only [InTreeHeader] at hh
      cases t with
      | none => trivial
      | kd x => simp only at hh ⊢; omega
      | ball x => simp only at hh ⊢; omega)
    simp only [List.append_assoc, List.length_append] at h3 h4
    simp only [nnCodec, dep, h3]
    exact h4

theorem obj_trunc {bits : Nat} (hb : Width bits) (f : Sc) (m : Mach) (k : Kind) (hk : k ≠ .other) (a : Obj k f) (pre : List Byte) (j : Nat)
    (hv : ValidObj bits m k f a) (hj : j < (encObj k f a).length) (hh : ¬ CutInTreeHeader f k a j) :
    ((codec bits m k f).des (pre ++ (encObj k f a).take j) (freshObj k f) pre.length).1 = .invalidFile := by
  by_cases hn : k = .nn
  · subst hn
    exact nn_trunc' hb f a (vdef (nnTys f)) pre j hv.1 hv.2 hj hh
  · exact (obj_strict hb f m k hk hn).des_trunc a _ pre j hv (fresh_init k f hk) hj

theorem items_exc {α β : Type} {c : Codec α} {d : Codec β} {it : Items α β} {bytes : List Byte} {a a' : α} {l : List β} {off o : Nat}
    (h : c.des bytes a off = (.ok, a', o)) (h1 : it.pre a' = .ok) (h2 : it.count a' < 0) :
    ((items c d it).des bytes (a, l) off).1 = .exc := by
  simp only [items]
  rw [h]
  dsimp only
  rw [h1]
  rw [if_neg (by simp), if_pos (Or.inl h2)]

end Verif.Persist
