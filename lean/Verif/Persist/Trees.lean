import Verif.Persist.Laws
set_option linter.unusedSimpArgs false
namespace Verif.Persist

/-! ### Every successful read advances -/

/-- A successful read takes at least one byte. -/
def Grows {α : Type} (c : Codec α) : Prop :=
  ∀ (bytes : List Byte) (init : α) (off : Nat), (c.des bytes init off).1 = .ok → off < (c.des bytes init off).2.2

theorem desLoop_mono {α : Type} {g : α → Nat → St × α × Nat} (hg : ∀ x off, (g x off).1 = .ok → off ≤ (g x off).2.2) :
    ∀ (l : List α) (off : Nat), (desLoop g l off).1 = .ok → off ≤ (desLoop g l off).2.2 := by
  intro l
  induction l with
  | nil => intro off _; exact Nat.le_refl _
  | cons x xs ih =>
    intro off h
    have h1 := hg x off
    simp only [desLoop] at h ⊢
    cases hr : g x off with
    | mk s r =>
      obtain ⟨v, o⟩ := r
      rw [hr] at h h1
      cases s <;> first
        | (simp only at h; cases h; done)
        | exact Nat.le_trans (h1 rfl) (ih o h)

theorem des_grows {bits : Nat} (bytes : List Byte) : ∀ (t : Ty) (init : t.denote) (off : Nat),
    (des bits bytes t init off).1 = .ok → off < (des bits bytes t init off).2.2 := by
  intro t
  induction t with
  | sc s =>
    intro init off
    simp only [des]
    split
    · intro h; cases h
    · cases hr : readAt bytes off s.size with
      | none => intro h; cases h
      | some bs =>
        intro _
        have : 0 < s.size := by cases s <;> decide
        show off < off + s.size
        omega
  | vec t ih =>
    intro init off
    simp only [des]
    split
    · intro h; cases h
    · cases hr : readAt bytes off 8 with
      | none => intro h; cases h
      | some bs =>
        simp only
        split
        · intro h; cases h
        · intro h
          have hm := desLoop_mono (g := fun x o => des bits bytes t x o) (fun x o hx => Nat.le_of_lt (ih x o hx))
            ((resize t.default init (i64Of bs).toNat).take (imax bits + 1)) (off + 8)
          cases hd : desLoop (fun x o => des bits bytes t x o)
              ((resize t.default init (i64Of bs).toNat).take (imax bits + 1)) (off + 8) with
          | mk s r =>
            obtain ⟨vs, o⟩ := r
            rw [hd] at h hm
            cases s <;> first
              | (simp only at h; cases h; done)
              | (have := hm rfl; simp only at this ⊢; omega)

theorem fields_mono {bits : Nat} : ∀ (ts : List Ty) (bytes : List Byte) (init : Vals ts) (off : Nat),
    ((fields bits ts).des bytes init off).1 = .ok → off ≤ ((fields bits ts).des bytes init off).2.2 := by
  intro ts
  induction ts with
  | nil => intro bytes init off _; exact Nat.le_refl _
  | cons t ts ih =>
    rintro bytes ⟨a, b⟩ off h
    have h1 := des_grows (bits := bits) bytes t a off
    simp only [fields, seq, field] at h ⊢
    cases hr : des bits bytes t a off with
    | mk s r =>
      obtain ⟨v, o⟩ := r
      rw [hr] at h h1
      cases s <;> first
        | (simp only at h; cases h; done)
        | exact Nat.le_trans (Nat.le_of_lt (h1 rfl)) (ih bytes b o h)

theorem fields_grows {bits : Nat} (t : Ty) (ts : List Ty) : Grows (fields bits (t :: ts)) := by
  rintro bytes ⟨a, b⟩ off h
  have h1 := des_grows (bits := bits) bytes t a off
  simp only [fields, seq, field] at h ⊢
  cases hr : des bits bytes t a off with
  | mk s r =>
    obtain ⟨v, o⟩ := r
    rw [hr] at h h1
    cases s <;> first
      | (simp only at h; cases h; done)
      | exact Nat.lt_of_lt_of_le (h1 rfl) (fields_mono ts bytes b o h)

/-! ### Neighbour trees -/

section bt
variable {bits : Nat} {ν : Type} {c : Codec ν} {e : ν → List Byte} {P I : ν → Prop}

/-- The bytes of a tree. -/
def encBT (e : ν → List Byte) : BT ν → List Byte
  | .nil => leBytes 1 0
  | .node ofs v l r => leBytes 1 1 ++ i64Bytes ofs ++ e v ++ encBT e l ++ encBT e r

/-- Trees all of whose nodes point into the index array. -/
def ValidBT (bits : Nat) (P : ν → Prop) (nidx : Nat) : BT ν → Prop
  | .nil => True
  | .node ofs v l r => 0 ≤ ofs ∧ ofs < nidx ∧ Valid bits (.sc .int) ofs ∧ P v ∧ ValidBT bits P nidx l ∧ ValidBT bits P nidx r

theorem addSize_ok {n k : Nat} (h : n + k ≤ imax bits) : addSize bits n k = (.ok, n + k) := by
  simp only [addSize]; rw [if_neg (by omega)]

theorem btSize_ok (hc : Lawful bits c e P I) {nidx : Nat} : ∀ (t : BT ν) (n : Nat), ValidBT bits P nidx t →
    n + (encBT e t).length ≤ imax bits → btSize bits c t n = (.ok, n + (encBT e t).length) := by
  intro t
  induction t with
  | nil =>
    intro n _ h
    simp only [encBT, leBytes_length] at h ⊢
    exact addSize_ok h
  | node ofs v l r ihl ihr =>
    intro n hv h
    obtain ⟨-, -, -, hp, hl, hr⟩ := hv
    simp only [encBT, List.length_append, leBytes_length, i64Bytes_length] at h ⊢
    simp only [btSize, btHeadSize]
    rw [addSize_ok (by omega)]
    dsimp only
    rw [addSize_ok (by omega)]
    dsimp only
    rw [hc.size_ok v _ hp (by omega)]
    dsimp only
    rw [ihl _ hl (by omega)]
    dsimp only
    rw [ihr _ hr (by omega)]
    simp only [Nat.add_assoc]

theorem btSer_ok (hc : Lawful bits c e P I) {nidx size : Nat} : ∀ (t : BT ν) (buf : List Byte), ValidBT bits P nidx t →
    buf.length + (encBT e t).length ≤ size → btSer size c t buf = (.ok, buf ++ encBT e t) := by
  intro t
  induction t with
  | nil =>
    intro buf _ h
    exact put_ok h
  | node ofs v l r ihl ihr =>
    intro buf hv h
    obtain ⟨-, -, -, hp, hl, hr⟩ := hv
    simp only [encBT, List.length_append, leBytes_length, i64Bytes_length] at h ⊢
    simp only [btSer, btHead]
    rw [put_ok (by simp only [leBytes_length]; omega)]
    dsimp only
    rw [put_ok (by simp only [List.length_append, leBytes_length, i64Bytes_length]; omega)]
    dsimp only
    rw [hc.ser_ok size v _ hp (by simp only [List.length_append, leBytes_length, i64Bytes_length]; omega)]
    dsimp only
    rw [ihl _ hl (by simp only [List.length_append, leBytes_length, i64Bytes_length]; omega)]
    dsimp only
    rw [ihr _ hr (by simp only [List.length_append, leBytes_length, i64Bytes_length]; omega)]
    simp only [List.append_assoc]

theorem btSer_len (hc : ∀ size a buf, buf.length ≤ size → (c.ser size a buf).2.length ≤ size) {size : Nat} :
    ∀ (t : BT ν) (buf : List Byte), buf.length ≤ size → (btSer size c t buf).2.length ≤ size := by
  intro t
  induction t with
  | nil => intro buf h; exact put_len h
  | node ofs v l r ihl ihr =>
    intro buf h
    simp only [btSer]
    have h1 : (btHead size ofs buf).2.length ≤ size := by
      simp only [btHead]
      have h2 := put_len (bs := leBytes 1 1) h
      cases hr : put size (leBytes 1 1) buf with
      | mk s b =>
        rw [hr] at h2
        cases s <;> first | exact h2 | exact put_len h2
    generalize btHead size ofs buf = p at h1 ⊢
    have h2 := hc size v p.2 h1
    cases hr : c.ser size v p.2 with
    | mk s b2 =>
      rw [hr] at h2
      cases s <;> first
        | exact h2
        | (have h3 := ihl b2 h2
           try dsimp only
           cases hr3 : btSer size c l b2 with
           | mk s3 b3 =>
             rw [hr3] at h3
             cases s3 <;> first | exact h3 | exact ihr b3 h3)

theorem encBT_pos (e : ν → List Byte) (t : BT ν) : 0 < (encBT e t).length := by
  cases t <;> simp only [encBT, List.length_append, leBytes_length] <;> omega

theorem btDes_ok (hb : Width bits) (hc : Lawful bits c e P (Any ν)) (dv : ν) {nidx : Nat} : ∀ (t init : BT ν) (pre post : List Byte) (fuel : Nat),
    ValidBT bits P nidx t → (encBT e t).length ≤ fuel →
      btDes bits c dv nidx (pre ++ encBT e t ++ post) fuel init pre.length = (.ok, t, pre.length + (encBT e t).length) := by
  intro t
  induction t with
  | nil =>
    intro init pre post fuel _ hf
    cases fuel with
    | zero => simp [encBT, leBytes_length] at hf
    | succ fuel =>
      have h1 := des_ok hb (.sc .bool) (false : Bool) init.exists pre post trivial
      simp only [enc_sc, Sc.encode] at h1
      simp only [btDes, encBT]
      simp only [Bool.false_eq_true, if_false] at h1
      rw [h1]
  | node ofs v l r ihl ihr =>
    intro init pre post fuel hv hf
    obtain ⟨ho1, ho2, ho3, hp, hl, hr⟩ := hv
    cases fuel with
    | zero => simp only [encBT, List.length_append, leBytes_length] at hf; omega
    | succ fuel =>
      simp only [encBT, List.length_append, leBytes_length, i64Bytes_length] at hf
      have h1 := des_ok hb (.sc .bool) (true : Bool) init.exists pre (i64Bytes ofs ++ e v ++ encBT e l ++ encBT e r ++ post) trivial
      have h2 := des_ok hb (.sc .int) ofs (0 : Int) (pre ++ leBytes 1 1) (e v ++ encBT e l ++ encBT e r ++ post) ho3
      have h3 := hc.des_ok v (init.data dv) (pre ++ leBytes 1 1 ++ i64Bytes ofs) (encBT e l ++ encBT e r ++ post) hp trivial
      have h4 := ihl init.left (pre ++ leBytes 1 1 ++ i64Bytes ofs ++ e v) (encBT e r ++ post) fuel hl (by omega)
      have h5 := ihr init.right (pre ++ leBytes 1 1 ++ i64Bytes ofs ++ e v ++ encBT e l) post fuel hr (by omega)
      simp only [enc_sc, Sc.encode, if_true, List.append_assoc, List.length_append, leBytes_length, i64Bytes_length] at h1 h2 h3 h4 h5
      simp only [encBT, List.append_assoc, List.length_append, leBytes_length, i64Bytes_length, btDes]
      rw [h1]
      dsimp only
      rw [if_pos rfl, h2]
      dsimp only
      have hn : ¬ (@LT.lt Int _ ofs 0 ∨ ofs.toNat ≥ nidx) := by omega
      rw [if_neg hn]
      try simp only [Nat.add_assoc] at h3 h4 h5 ⊢
      rw [h3]
      dsimp only
      rw [h4]
      dsimp only
      rw [h5]

/-- Reading a tree keeps within the bytes, whatever they are, and ends with success or
`invalid_file_data`. -/
theorem btDes_safe (hc : Safe bits c Plain) (hg : Grows c) (dv : ν) (nidx : Nat) (bytes : List Byte) (hlen : bytes.length ≤ imax bits) :
    ∀ (fuel : Nat) (t : BT ν) (off : Nat), off ≤ bytes.length → bytes.length < fuel + off →
      Plain (btDes bits c dv nidx bytes fuel t off).1 ∧ off ≤ (btDes bits c dv nidx bytes fuel t off).2.2 ∧
        (btDes bits c dv nidx bytes fuel t off).2.2 ≤ bytes.length := by
  intro fuel
  induction fuel with
  | zero => intro t off h1 h2; omega
  | succ fuel ih =>
    intro t off ho hf
    have h1 := des_safe bytes hlen (.sc .bool) t.exists off ho
    simp only [btDes]
    cases hr1 : des bits bytes (.sc .bool) t.exists off with
    | mk s1 r1 =>
      obtain ⟨b1, o1⟩ := r1
      rw [hr1] at h1
      obtain ⟨p1, q1, r1⟩ := h1
      simp only at p1 q1 r1
      cases b1 with
      | false => exact ⟨p1, q1, r1⟩
      | true =>
        dsimp only
        have h2 : o1 ≤ (if s1 = St.ok then des bits bytes (.sc .int) (0 : Int) o1 else (s1, (0 : Int), o1)).2.2 ∧
            (if s1 = St.ok then des bits bytes (.sc .int) (0 : Int) o1 else (s1, (0 : Int), o1)).2.2 ≤ bytes.length := by
          split
          · exact (des_safe bytes hlen (.sc .int) (0 : Int) o1 r1).2
          · exact ⟨Nat.le_refl _, r1⟩
        generalize (if s1 = St.ok then des bits bytes (.sc .int) (0 : Int) o1 else (s1, (0 : Int), o1)) = q at h2 ⊢
        obtain ⟨s2, ofs, o2⟩ := q
        simp only at h2
        dsimp only
        split
        · exact ⟨Or.inr rfl, by simp only; omega, h2.2⟩
        · have h3 := hc bytes (t.data dv) o2 hlen h2.2
          have hg3 := hg bytes (t.data dv) o2
          cases hr3 : c.des bytes (t.data dv) o2 with
          | mk s3 r3 =>
            obtain ⟨v, o3⟩ := r3
            rw [hr3] at h3 hg3
            obtain ⟨p3, q3, r3⟩ := h3
            simp only at p3 q3 r3 hg3
            rcases p3 with rfl | rfl
            · have h4 := ih t.left o3 r3 (by have := hg3 rfl; omega)
              dsimp only
              cases hr4 : btDes bits c dv nidx bytes fuel t.left o3 with
              | mk s4 r4 =>
                obtain ⟨l, o4⟩ := r4
                rw [hr4] at h4
                obtain ⟨p4, q4, r4⟩ := h4
                simp only at p4 q4 r4
                rcases p4 with rfl | rfl
                · have h5 := ih t.right o4 r4 (by have := hg3 rfl; omega)
                  exact ⟨h5.1, Nat.le_trans (by omega) h5.2.1, h5.2.2⟩
                · exact ⟨Or.inr rfl, by simp only; omega, r4⟩
            · exact ⟨Or.inr rfl, by simp only; omega, r3⟩

variable {α : Type} {h : Codec α} {eh : α → List Byte} {Ph : α → Prop} {nidx : α → Nat}

theorem btree_lawful (hb : Width bits) (hh : Lawful bits h eh Ph (Any α)) (hc : Lawful bits c e P (Any ν)) (dv : ν) :
    Lawful bits (btree bits h c dv nidx) (fun p => eh p.1 ++ encBT e p.2) (fun p => Ph p.1 ∧ ValidBT bits P (nidx p.1) p.2) (Any _) where
  size_ok := by
    rintro ⟨a, t⟩ n ⟨hp, ht⟩ hl
    simp only [List.length_append] at hl ⊢
    simp only [btree]
    rw [hh.size_ok a n hp (by omega), btSize_ok hc t _ ht (by omega), Nat.add_assoc]
  ser_ok := by
    rintro size ⟨a, t⟩ buf ⟨hp, ht⟩ hl
    simp only [List.length_append] at hl ⊢
    simp only [btree]
    rw [hh.ser_ok size a buf hp (by omega), btSer_ok hc t _ ht (by simp only [List.length_append]; omega), List.append_assoc]
  ser_len := by
    rintro size ⟨a, t⟩ buf hl
    exact btSer_len hc.ser_len t _ (hh.ser_len size a buf hl)
  des_ok := by
    rintro ⟨a, t⟩ ⟨ia, it⟩ pre post ⟨hp, ht⟩ -
    have h1 := hh.des_ok a ia pre (encBT e t ++ post) hp trivial
    have h2 := btDes_ok hb hc dv t it (pre ++ eh a) post ((pre ++ (eh a ++ (encBT e t ++ post))).length + 2) ht
      (by simp only [List.length_append]; omega)
    simp only [List.append_assoc, List.length_append] at h1 h2 ⊢
    simp only [btree, h1, List.length_append, h2]
    simp only [Nat.add_assoc]

theorem btree_safe (hh : Safe bits h Plain) (hc : Safe bits c Plain) (hg : Grows c) (dv : ν) :
    Safe bits (btree bits h c dv nidx) Plain := by
  rintro bytes ⟨a, t⟩ off hlen ho
  have h1 := hh bytes a off hlen ho
  have h2 := btDes_safe hc hg dv (nidx (h.des bytes a off).2.1) bytes hlen (bytes.length + 2) t (h.des bytes a off).2.2
    h1.2.2 (by omega)
  exact ⟨h2.1, Nat.le_trans h1.2.1 h2.2.1, h2.2.2⟩

end bt

/-! ### User data -/

section user
variable {size : Nat} {s : Sc} {X : Nat → s.denote}

/-- What is written for a matrix: its elements in storage order; a single column is always taken
to be contiguous. -/
def saved {s : Sc} (X : Option (Nat → s.denote)) (colMajor : Bool) (m n ld : Nat) : List s.denote :=
  match X with
  | none => []
  | some X => packed X (if n = 1 then true else colMajor) m n ld

theorem flatMap_range_length {β : Type} (g : Nat → List β) (k : Nat) (hg : ∀ i, (g i).length = k) : ∀ n,
    ((List.range n).flatMap g).length = n * k := by
  intro n
  induction n with
  | zero => simp
  | succ n ih => simp [List.range_succ, ih, hg, Nat.add_mul]

theorem packed_length {δ : Type} (X : Nat → δ) (col : Bool) (m n ld : Nat) : (packed X col m n ld).length = m * n := by
  cases col
  · simp only [packed, Bool.false_eq_true, if_false]
    rw [flatMap_range_length _ n (by simp)]
  · simp only [packed, if_true]
    rw [flatMap_range_length _ m (by simp), Nat.mul_comm]

theorem serLoop_range {β : Type} (f : β → List Byte → St × List Byte) (g : β → List Byte) (hf : ∀ x buf, buf.length + (g x).length ≤ size → f x buf = (.ok, buf ++ g x)) :
    ∀ (l : List β) (buf : List Byte), buf.length + (l.flatMap g).length ≤ size → serLoop f l buf = (.ok, buf ++ l.flatMap g) := by
  intro l
  induction l with
  | nil => intro buf _; simp [serLoop]
  | cons x xs ih =>
    intro buf h
    simp only [List.flatMap_cons, List.length_append] at h ⊢
    rw [serLoop, hf x buf (by omega)]
    dsimp only
    rw [ih _ (by simp only [List.length_append]; omega), List.append_assoc]

theorem userPart_ok (start k : Nat) (buf : List Byte)
    (h : buf.length + ((List.range k).flatMap fun j => s.encode (X (start + j))).length ≤ size) :
    userPart size s X start k buf = (.ok, buf ++ (List.range k).flatMap fun j => s.encode (X (start + j))) := by
  simp only [userPart]
  have hl : ((List.range k).flatMap fun j => s.encode (X (start + j))).length = k * s.size :=
    flatMap_range_length _ _ (fun i => encode_length s _) k
  split
  · exact serLoop_range _ (fun j => s.encode (X (start + j))) (fun x b hb => put_ok hb) (List.range k) buf h
  · rw [if_neg]; rw [hl] at h; omega

theorem flatMap_map' {β γ δ : Type} (f : γ → List δ) (g : β → γ) : ∀ l : List β, (l.map g).flatMap f = l.flatMap fun x => f (g x) := by
  intro l; induction l with
  | nil => rfl
  | cons x xs ih => simp [ih]

/-- Writing user data is writing the vector of its elements, into a buffer that has room. -/
theorem userSer_ok (X : Option (Nat → s.denote)) (col : Bool) (m n ld : Nat) (buf : List Byte)
    (h : buf.length + (enc (.vec (.sc s)) (saved X col m n ld)).length ≤ size) :
    userSer size s X col m n ld buf = (.ok, buf ++ enc (.vec (.sc s)) (saved X col m n ld)) := by
  cases X with
  | none =>
    simp only [saved, enc_vec, List.flatMap_nil, List.append_nil, List.length_nil, Int.ofNat_zero, Int.natCast_zero] at h ⊢
    exact put_ok h
  | some X =>
    simp only [saved, enc_vec, packed_length, List.length_append, i64Bytes_length] at h ⊢
    simp only [userSer]
    rw [put_ok (by simp only [i64Bytes_length]; omega)]
    dsimp only
    generalize (if n = 1 then true else col) = c at h ⊢
    cases c
    · simp only [packed, Bool.false_eq_true, if_false, List.flatMap_assoc, flatMap_map', enc_sc] at h ⊢
      rw [serLoop_range _ (fun i => (List.range n).flatMap fun j => s.encode (X (i * ld + j)))
        (fun i b hb => userPart_ok _ _ _ hb) _ _ (by simp only [List.length_append, i64Bytes_length]; omega)]
      simp only [List.append_assoc]
    · simp only [packed, if_true, List.flatMap_assoc, flatMap_map', enc_sc] at h ⊢
      rw [serLoop_range _ (fun i => (List.range m).flatMap fun j => s.encode (X (i * ld + j)))
        (fun i b hb => userPart_ok _ _ _ hb) _ _ (by simp only [List.length_append, i64Bytes_length]; omega)]
      simp only [List.append_assoc]

theorem userSize_ok {bits : Nat} (X : Option (Nat → s.denote)) (col : Bool) (m n ld total : Nat)
    (h : total + (enc (.vec (.sc s)) (saved X col m n ld)).length ≤ imax bits) :
    userSize bits s X m n total = (.ok, total + (enc (.vec (.sc s)) (saved X col m n ld)).length) := by
  rw [← getSize_eq] at h ⊢
  cases X with
  | none =>
    simp only [saved, getSize, List.length_nil, Nat.zero_mul] at h ⊢
    simp only [userSize]
    rw [addSize_ok (by omega)]
    rfl
  | some X =>
    simp only [saved, getSize, packed_length] at h ⊢
    simp only [userSize]
    rw [addSize_ok (by omega)]
    dsimp only
    rw [if_neg (by simp), addSize_ok (by omega), Nat.add_assoc]

end user
end Verif.Persist
