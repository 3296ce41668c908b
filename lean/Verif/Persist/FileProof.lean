import Verif.Persist.Handles
import Mathlib.Data.List.Perm.Subperm
set_option linter.unusedSimpArgs false
namespace Verif.Persist

/-! ### Writing into too small a buffer fails -/

/-- The size counted never exceeds the largest `da_int`, and writing reports lack of room. -/
structure SerStrict (bits : Nat) {α : Type} (c : Codec α) (e : α → List Byte) (P : α → Prop) : Prop where
  size_le : ∀ a n, n ≤ imax bits → (c.size a n).2 ≤ imax bits
  ser_fail : ∀ size a buf, P a → buf.length ≤ size → ¬ buf.length + (e a).length ≤ size → (c.ser size a buf).1 ≠ .ok

theorem addSize_le {bits n k : Nat} (h : n ≤ imax bits) : (addSize bits n k).2 ≤ imax bits := by
  simp only [addSize]; split
  · exact h
  · simp only; omega

section
variable {bits : Nat} {α β : Type} {c : Codec α} {d : Codec β} {e : α → List Byte} {f : β → List Byte}
  {P I : α → Prop} {Q J : β → Prop}

theorem field_ss (hb : Width bits) (t : Ty) : SerStrict bits (field bits t) (enc t) (Valid bits t) where
  size_le _ _ h := addSize_le h
  ser_fail := (field_strict hb t).ser_fail

theorem seq_size_le (hc : ∀ a n, n ≤ imax bits → (c.size a n).2 ≤ imax bits)
    (hd : ∀ a n, n ≤ imax bits → (d.size a n).2 ≤ imax bits) : ∀ a n, n ≤ imax bits → ((seq c d).size a n).2 ≤ imax bits := by
  rintro ⟨a, b⟩ n h
  have h1 := hc a n h
  simp only [seq]
  cases hr : c.size a n with
  | mk s n' =>
    rw [hr] at h1
    cases s <;> first | exact h1 | exact hd b n' h1

theorem fields_ss (hb : Width bits) (ts : List Ty) : SerStrict bits (fields bits ts) (encs ts) (Valids bits ts) where
  size_le := by
    induction ts with
    | nil => intro a n h; exact h
    | cons t ts ih => exact seq_size_le (field_ss hb t).size_le ih
  ser_fail := (fields_strict hb ts).ser_fail

theorem guarded_ss {check : α → St} (hc : SerStrict bits c e P) :
    SerStrict bits (guarded c check) e (fun a => P a ∧ check a = .ok) where
  size_le := hc.size_le
  ser_fail size a buf hp h0 h := hc.ser_fail size a buf hp.1 h0 h

theorem sizeLoop_le (hd : ∀ a n, n ≤ imax bits → (d.size a n).2 ≤ imax bits) : ∀ (l : List β) (n : Nat),
    n ≤ imax bits → (serLoop d.size l n).2 ≤ imax bits := by
  intro l
  induction l with
  | nil => intro n h; exact h
  | cons x xs ih =>
    intro n h
    have h1 := hd x n h
    rw [serLoop]
    cases hr : d.size x n with
    | mk s n' =>
      rw [hr] at h1
      cases s <;> first | exact h1 | exact ih n' h1

theorem serLoop_ss (hd : Lawful bits d f Q J) (hd' : SerStrict bits d f Q) {size : Nat} : ∀ (l : List β) (buf : List Byte),
    (∀ x ∈ l, Q x) → buf.length ≤ size → ¬ buf.length + (l.flatMap f).length ≤ size → (serLoop (d.ser size) l buf).1 ≠ .ok := by
  intro l
  induction l with
  | nil => intro n _ h0 h; exact absurd h0 h
  | cons x xs ih =>
    intro buf hq h0 h
    simp only [List.flatMap_cons, List.length_append] at h
    rw [serLoop]
    by_cases h1 : buf.length + (f x).length ≤ size
    · rw [hd.ser_ok size x buf (hq x (by simp)) h1]
      exact ih _ (fun y hy => hq y (by simp [hy])) (by simpa using h1) (by simp only [List.length_append]; omega)
    · have := hd'.ser_fail size x buf (hq x (by simp)) h0 h1
      cases hr : d.ser size x buf with
      | mk s n' => rw [hr] at this; cases s <;> simp_all

theorem items_ss {it : Items α β} (hc : Lawful bits c e P I) (hc' : SerStrict bits c e P) (hd : Lawful bits d f Q J)
    (hd' : SerStrict bits d f Q) :
    SerStrict bits (items c d it) (fun p => e p.1 ++ p.2.flatMap f) (ItemsValid it P Q) where
  size_le := by
    rintro ⟨a, l⟩ n h
    have h1 := hc'.size_le a n h
    simp only [items]
    cases hr : c.size a n with
    | mk s n' =>
      rw [hr] at h1
      cases s <;> first
        | exact h1
        | (simp only
           split
           · exact h1
           · exact sizeLoop_le hd'.size_le _ _ h1)
  ser_fail := by
    rintro size ⟨a, l⟩ buf ⟨hp, hq, hn, -⟩ h0 h
    simp only at hp hq hn
    simp only [List.length_append] at h
    have hn' : (it.count a).toNat = l.length := by omega
    simp only [items]
    by_cases h1 : buf.length + (e a).length ≤ size
    · rw [hc.ser_ok size a buf hp h1]
      simp only [hn']
      rw [if_neg (by omega), List.take_length]
      exact serLoop_ss hd hd' l _ hq (by simpa using h1) (by simp only [List.length_append]; omega)
    · have := hc'.ser_fail size a buf hp h0 h1
      cases hr : c.ser size a buf with
      | mk s n' => rw [hr] at this; cases s <;> simp_all

end

/-! ### Neighbour trees

When writing the header fails fewer than eight bytes are left, so writing the first integer of the
root fails as well. -/

theorem put_room {size : Nat} {bs buf : List Byte} (h : (put size bs buf).1 ≠ .ok) (hb : bs.length ≤ 8) :
    size < (put size bs buf).2.length + 8 := by
  simp only [put] at h ⊢
  split at h
  · rw [if_pos (by assumption)]; simp only; omega
  · exact absurd rfl h

theorem encode_le (s : Sc) (v : s.denote) : (s.encode v).length ≤ 8 := by
  rw [encode_length]; cases s <;> decide

theorem serLoop_room {α : Type} {size : Nat} {g : α → List Byte → St × List Byte}
    (hg : ∀ x buf, (g x buf).1 ≠ .ok → size < (g x buf).2.length + 8) : ∀ (l : List α) (buf : List Byte),
    (serLoop g l buf).1 ≠ .ok → size < (serLoop g l buf).2.length + 8 := by
  intro l
  induction l with
  | nil => intro buf h; exact absurd rfl h
  | cons x xs ih =>
    intro buf
    have h1 := hg x buf
    rw [serLoop]
    cases hr : g x buf with
    | mk s b =>
      rw [hr] at h1
      cases s <;> first
        | exact fun _ => h1 (by simp)
        | exact ih b

theorem ser_room {size : Nat} : ∀ (t : Ty) (v : t.denote) (buf : List Byte), (ser size t v buf).1 ≠ .ok →
    size < (ser size t v buf).2.length + 8 := by
  intro t
  induction t with
  | sc s => intro v buf h; exact put_room h (encode_le s v)
  | vec t ih =>
    intro l buf
    have h1 := put_room (size := size) (bs := i64Bytes l.length) (buf := buf)
    simp only [ser]
    cases hr : put size (i64Bytes l.length) buf with
    | mk s b =>
      rw [hr] at h1
      cases s <;> first
        | exact fun _ => h1 (by simp) (Nat.le_of_eq (i64Bytes_length _))
        | exact serLoop_room (fun x b => ih x b) l b

theorem fields_room {bits size : Nat} : ∀ (ts : List Ty) (v : Vals ts) (buf : List Byte),
    ((fields bits ts).ser size v buf).1 ≠ .ok → size < ((fields bits ts).ser size v buf).2.length + 8 := by
  intro ts
  induction ts with
  | nil => intro v buf h; exact absurd rfl h
  | cons t ts ih =>
    rintro ⟨a, b⟩ buf
    have h1 := ser_room (size := size) t a buf
    simp only [fields, seq, field]
    cases hr : ser size t a buf with
    | mk s buf' =>
      rw [hr] at h1
      cases s <;> first
        | exact fun _ => h1 (by simp)
        | exact ih b buf'

section
variable {bits : Nat} {ν : Type} {c : Codec ν} {e : ν → List Byte} {P I : ν → Prop}

theorem btSize_le (hc : ∀ a n, n ≤ imax bits → (c.size a n).2 ≤ imax bits) : ∀ (t : BT ν) (n : Nat),
    n ≤ imax bits → (btSize bits c t n).2 ≤ imax bits := by
  intro t
  induction t with
  | nil => intro n h; exact addSize_le h
  | node ofs v l r ihl ihr =>
    intro n h
    simp only [btSize]
    have h1 : (btHeadSize bits n).2 ≤ imax bits := by
      simp only [btHeadSize]
      have h2 := addSize_le (k := 1) h
      cases hr : addSize bits n 1 with
      | mk s b =>
        rw [hr] at h2
        cases s <;> first | exact h2 | exact addSize_le h2
    generalize btHeadSize bits n = p at h1 ⊢
    have h2 := hc v p.2 h1
    cases hr : c.size v p.2 with
    | mk s b2 =>
      rw [hr] at h2
      cases s <;> first
        | exact h2
        | (have h3 := ihl b2 h2
           try dsimp only
           cases hr3 : btSize bits c l b2 with
           | mk s3 b3 =>
             rw [hr3] at h3
             cases s3 <;> first | exact h3 | exact ihr b3 h3)

theorem btHead_room {size : Nat} {ofs : Int} {buf : List Byte} (h : (btHead size ofs buf).1 ≠ .ok) :
    size < (btHead size ofs buf).2.length + 8 := by
  revert h
  have h1 := put_room (size := size) (bs := leBytes 1 1) (buf := buf)
  simp only [btHead]
  cases hr : put size (leBytes 1 1) buf with
  | mk s b =>
    rw [hr] at h1
    cases s <;> first
      | exact fun _ => h1 (by simp) (by rw [leBytes_length]; omega)
      | exact fun h => put_room h (Nat.le_of_eq (i64Bytes_length _))

/-- The tree has at least one node. -/
def BT.nonempty : BT ν → Prop
  | .nil => False
  | .node .. => True

/-- A node does not fit into seven bytes. -/
def Big (c : Codec ν) : Prop :=
  ∀ size v buf, size < buf.length + 8 → (c.ser size v buf).1 ≠ .ok

theorem btHead_ok {size : Nat} {ofs : Int} {buf : List Byte} (h : (btHead size ofs buf).1 = .ok) :
    buf.length + 1 + 8 ≤ size ∧ btHead size ofs buf = (.ok, buf ++ leBytes 1 1 ++ i64Bytes ofs) := by
  simp only [btHead] at h ⊢
  by_cases h1 : buf.length + 1 ≤ size
  · rw [put_ok (by rw [leBytes_length]; omega)] at h ⊢
    simp only at h ⊢
    by_cases h2 : buf.length + 1 + 8 ≤ size
    · rw [put_ok (by simp only [List.length_append, leBytes_length, i64Bytes_length]; omega)]
      exact ⟨h2, rfl⟩
    · rw [put_fail (by simp only [List.length_append, leBytes_length, i64Bytes_length]; omega)
        (by rw [i64Bytes_length]; omega)] at h
      cases h
  · rw [put_fail (by rw [leBytes_length]; omega) (by rw [leBytes_length]; omega)] at h
    cases h

theorem btSer_node {size : Nat} (hc : Lawful bits c e P I) (hc' : SerStrict bits c e P) (hbig : Big c) {nidx : Nat} :
    ∀ (t : BT ν) (buf : List Byte), ValidBT bits P nidx t → buf.length ≤ size →
      ¬ buf.length + (encBT e t).length ≤ size → (btSer size c t buf).1 ≠ .ok := by
  intro t
  induction t with
  | nil =>
    intro buf _ h0 h
    simp only [btSer]
    simp only [encBT] at h
    rw [put_fail h (by rw [leBytes_length]; omega)]
    simp
  | node ofs v l r ihl ihr =>
    intro buf hv h0 h
    obtain ⟨-, -, -, hp, hl, hr⟩ := hv
    simp only [btSer]
    by_cases hh : (btHead size ofs buf).1 = .ok
    · rw [(btHead_ok hh).2]
      dsimp only
      have hlen : (buf ++ leBytes 1 1 ++ i64Bytes ofs).length ≤ size := by
        have := (btHead_ok hh).1
        simp only [List.length_append, leBytes_length, i64Bytes_length]; omega
      generalize hb : buf ++ leBytes 1 1 ++ i64Bytes ofs = b1 at hlen ⊢
      have hb1 : b1.length = buf.length + 1 + 8 := by
        rw [← hb]; simp only [List.length_append, leBytes_length, i64Bytes_length]
      simp only [encBT, List.length_append, leBytes_length, i64Bytes_length] at h
      by_cases h1 : b1.length + (e v).length ≤ size
      · rw [hc.ser_ok size v _ hp h1]
        dsimp only
        by_cases h2 : (b1 ++ e v).length + (encBT e l).length ≤ size
        · rw [btSer_ok hc l _ hl h2]
          dsimp only
          refine ihr _ hr (by simpa only [List.length_append] using h2) ?_
          simp only [List.length_append]; omega
        · have := ihl _ hl (by simpa only [List.length_append] using h1) h2
          cases hr : btSer size c l (b1 ++ e v) with
          | mk s b => rw [hr] at this; cases s <;> simp_all
      · have := hc'.ser_fail size v b1 hp hlen h1
        cases hr : c.ser size v b1 with
        | mk s b => rw [hr] at this; cases s <;> simp_all
    · have := hbig size v (btHead size ofs buf).2 (btHead_room hh)
      cases hr : c.ser size v (btHead size ofs buf).2 with
      | mk s b => rw [hr] at this; cases s <;> simp_all

theorem btSer_small {size : Nat} (hbig : Big c) : ∀ (t : BT ν) (buf : List Byte), t.nonempty → size < buf.length + 8 →
    (btSer size c t buf).1 ≠ .ok := by
  intro t buf ht h
  cases t with
  | nil => exact ht.elim
  | node ofs v l r =>
    simp only [btSer]
    have h1 : size < (btHead size ofs buf).2.length + 8 := by
      by_cases hh : (btHead size ofs buf).1 = .ok
      · rw [(btHead_ok hh).2]; simp only [List.length_append]; omega
      · exact btHead_room hh
    have := hbig size v (btHead size ofs buf).2 h1
    cases hr : c.ser size v (btHead size ofs buf).2 with
    | mk s b => rw [hr] at this; cases s <;> simp_all

variable {hts : List Ty} {nidx : Vals hts → Nat}

theorem btree_ss (hb : Width bits) (hc : Lawful bits c e P (Any ν)) (hc' : SerStrict bits c e P) (hbig : Big c) (dv : ν) :
    SerStrict bits (btree bits (fields bits hts) c dv nidx) (fun p => encs hts p.1 ++ encBT e p.2)
      (fun p => Valids bits hts p.1 ∧ ValidBT bits P (nidx p.1) p.2 ∧ p.2.nonempty) where
  size_le := by
    rintro ⟨a, t⟩ n h
    exact btSize_le hc'.size_le t _ ((fields_ss hb hts).size_le a n h)
  ser_fail := by
    rintro size ⟨a, t⟩ buf ⟨hp, ht, hne⟩ h0 h
    simp only [List.length_append] at h
    simp only [btree]
    by_cases h1 : buf.length + (encs hts a).length ≤ size
    · rw [(fields_lawful hb hts).ser_ok size a buf hp h1]
      exact btSer_node hc hc' hbig t _ ht (by simpa using h1) (by simp only [List.length_append]; omega)
    · exact btSer_small hbig t _ hne (fields_room hts a buf ((fields_ss hb hts).ser_fail size a buf hp h0 h1))

end

theorem fields_big {bits : Nat} (ts : List Ty) : Big (fields bits (ti :: ts)) := by
  rintro size ⟨a, b⟩ buf h
  simp only [fields, seq, field, ser, put]
  rw [if_pos]
  · simp
  · have := encode_length .int a
    simp only [Sc.size] at this
    omega

/-! ### A part depending on another -/

section
variable {bits : Nat} {α β : Type} {c : Codec α} {d : α → Codec β} {e : α → List Byte} {f : α → β → List Byte}
  {P I : α → Prop} {Q : α → β → Prop} {J : β → Prop}

theorem dep_lawful (hc : Lawful bits c e P I) (hd : ∀ a, Lawful bits (d a) (f a) (Q a) J) :
    Lawful bits (dep c d) (fun p => e p.1 ++ f p.1 p.2) (fun p => P p.1 ∧ Q p.1 p.2) (fun p => I p.1 ∧ J p.2) where
  size_ok := by
    rintro ⟨a, b⟩ n ⟨hp, hq⟩ h
    simp only [List.length_append] at h ⊢
    simp only [dep]
    rw [hc.size_ok a n hp (by omega)]
    dsimp only
    rw [(hd a).size_ok b _ hq (by omega), Nat.add_assoc]
  ser_ok := by
    rintro size ⟨a, b⟩ buf ⟨hp, hq⟩ h
    simp only [List.length_append] at h ⊢
    simp only [dep]
    rw [hc.ser_ok size a buf hp (by omega)]
    dsimp only
    rw [(hd a).ser_ok size b _ hq (by simp only [List.length_append]; omega), List.append_assoc]
  ser_len := by
    rintro size ⟨a, b⟩ buf h
    have h1 := hc.ser_len size a buf h
    simp only [dep]
    cases hr : c.ser size a buf with
    | mk s b' =>
      rw [hr] at h1
      cases s <;> first | exact h1 | exact (hd a).ser_len size b b' h1
  des_ok := by
    rintro ⟨a, b⟩ ⟨ia, ib⟩ pre post ⟨hp, hq⟩ ⟨hi, hj⟩
    have h1 := hc.des_ok a ia pre (f a b ++ post) hp hi
    have h2 := (hd a).des_ok b ib (pre ++ e a) post hq hj
    simp only [List.append_assoc, List.length_append] at h1 h2 ⊢
    simp only [dep, h1, h2, Nat.add_assoc]

theorem dep_ss (hc : Lawful bits c e P I) (hc' : SerStrict bits c e P) (hd' : ∀ a, SerStrict bits (d a) (f a) (Q a)) :
    SerStrict bits (dep c d) (fun p => e p.1 ++ f p.1 p.2) (fun p => P p.1 ∧ Q p.1 p.2) where
  size_le := by
    rintro ⟨a, b⟩ n h
    have h1 := hc'.size_le a n h
    simp only [dep]
    cases hr : c.size a n with
    | mk s n' =>
      rw [hr] at h1
      cases s <;> first | exact h1 | exact (hd' a).size_le b n' h1
  ser_fail := by
    rintro size ⟨a, b⟩ buf ⟨hp, hq⟩ h0 h
    simp only [List.length_append] at h
    simp only [dep]
    by_cases h1 : buf.length + (e a).length ≤ size
    · rw [hc.ser_ok size a buf hp h1]
      exact (hd' a).ser_fail size b _ hq (by simpa using h1) (by simp only [List.length_append]; omega)
    · have := hc'.ser_fail size a buf hp h0 h1
      cases hr : c.ser size a buf with
      | mk s n' => rw [hr] at this; cases s <;> simp_all

theorem dep_safe {A : St → Prop} (hc : Safe bits c A) (hd : ∀ a, Safe bits (d a) A) : Safe bits (dep c d) A := by
  rintro bytes ⟨a, b⟩ off hl ho
  have h1 := hc bytes a off hl ho
  simp only [dep]
  cases hr : c.des bytes a off with
  | mk s r =>
    obtain ⟨a', o⟩ := r
    rw [hr] at h1
    obtain ⟨h2, h3, h4⟩ := h1
    have h5 := hd a' bytes b o hl h4
    cases s <;> first
      | exact ⟨h2, h3, h4⟩
      | exact ⟨h5.1, Nat.le_trans h3 h5.2.1, h5.2.2⟩

end
end Verif.Persist
