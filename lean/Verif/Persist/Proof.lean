import Verif.Persist.Model

namespace Verif.Persist

/-- The bytes a value is written as. -/
def enc : (t : Ty) → t.denote → List Byte
  | .sc s, v => s.encode v
  | .vec t, l => i64Bytes l.length ++ List.flatMap (fun x => enc t x) l

theorem enc_sc (s : Sc) (v : s.denote) : enc (.sc s) v = s.encode v := rfl
theorem enc_vec (t : Ty) (l : List t.denote) : enc (.vec t) l = i64Bytes l.length ++ List.flatMap (enc t) l := rfl

/-- Values that exist at run time: integers fit their types, containers have at most as many
elements as a `da_int` can count. -/
def Valid (bits : Nat) : (t : Ty) → t.denote → Prop
  | .sc .int, v => -(2 : Int) ^ (bits - 1) ≤ v ∧ v < (2 : Int) ^ (bits - 1)
  | .sc .enum, v => -(2 : Int) ^ 63 ≤ v ∧ v < (2 : Int) ^ 63
  | .sc .bool, _ => True
  | .sc .char, _ => True
  | .sc .f32, _ => True
  | .sc .f64, _ => True
  | .vec t, l => l.length ≤ imax bits ∧ ∀ x ∈ l, Valid bits t x

theorem leBytes_length : ∀ k n, (leBytes k n).length = k := by
  intro k
  induction k with
  | zero => intro n; rfl
  | succ k ih => intro n; simp [leBytes, ih]

theorem leNat_leBytes : ∀ k n, leNat (leBytes k n) = n % 256 ^ k := by
  intro k
  induction k with
  | zero => intro n; simp [leBytes, leNat, Nat.mod_one]
  | succ k ih =>
    intro n
    simp only [leBytes, leNat, ih]
    rw [Nat.pow_succ', Nat.mod_mul]

theorem leNat_lt : ∀ bs : List Byte, leNat bs < 256 ^ bs.length := by
  intro bs
  induction bs with
  | nil => simp [leNat]
  | cons b bs ih =>
    simp only [leNat, List.length_cons, Nat.pow_succ]
    have := b.isLt
    omega

theorem i64Bytes_length (v : Int) : (i64Bytes v).length = 8 := leBytes_length _ _

theorem i64Of_bytes (v : Int) (h1 : -(2 : Int) ^ 63 ≤ v) (h2 : v < (2 : Int) ^ 63) : i64Of (i64Bytes v) = v := by
  have h : leNat (i64Bytes v) = (v % 2 ^ 64).toNat := by
    rw [i64Bytes, leNat_leBytes]
    omega
  simp only [i64Of, h]
  by_cases hv : 0 ≤ v
  · rw [if_pos (by omega)]; omega
  · rw [if_neg (by omega)]; omega

theorem encode_length (s : Sc) (v : s.denote) : (s.encode v).length = s.size := by
  cases s <;> simp [Sc.encode, Sc.size, leBytes_length, i64Bytes_length]

theorem bmod_id {bits : Nat} {v : Int} (hb : 1 ≤ bits) (h1 : -(2 : Int) ^ (bits - 1) ≤ v)
    (h2 : v < (2 : Int) ^ (bits - 1)) : Int.bmod v (2 ^ bits) = v := by
  obtain ⟨b, rfl⟩ : ∃ b, bits = b + 1 := ⟨bits - 1, by omega⟩
  simp only [Nat.add_sub_cancel] at h1 h2
  apply Int.bmod_eq_of_le
  · have : ((2 ^ (b + 1) : Nat) : Int) = 2 * 2 ^ b := by push_cast; rw [Int.pow_succ]; omega
    rw [this]; omega
  · have : ((2 ^ (b + 1) : Nat) : Int) = 2 * 2 ^ b := by push_cast; rw [Int.pow_succ]; omega
    rw [this]; omega

/-- Admissible widths of `da_int`. -/
def Width (bits : Nat) : Prop := bits = 32 ∨ bits = 64

theorem decode_encode {bits : Nat} (hb : Width bits) (s : Sc) (v : s.denote) (hv : Valid bits (.sc s) v) :
    s.decode bits (s.encode v) = v := by
  cases s with
  | bool => cases v <;> rfl
  | int =>
    simp only [Sc.decode, Sc.encode]
    have h1 : -(2 : Int) ^ (bits - 1) ≤ v := hv.1
    have h2 : @LT.lt Int _ v ((2 : Int) ^ (bits - 1)) := hv.2
    rw [i64Of_bytes]
    · exact bmod_id (by rcases hb with rfl | rfl <;> decide) h1 h2
    · rcases hb with rfl | rfl <;> simp only [Nat.reduceSub] at h1 <;> omega
    · rcases hb with rfl | rfl <;> simp only [Nat.reduceSub] at h2 <;> omega
  | enum =>
    simp only [Sc.decode, Sc.encode]
    exact i64Of_bytes v hv.1 hv.2
  | char => rfl
  | f32 =>
    apply Fin.ext
    simp only [Sc.decode, Sc.encode, leNat_leBytes]
    have := v.isLt
    omega
  | f64 =>
    apply Fin.ext
    simp only [Sc.decode, Sc.encode, leNat_leBytes]
    have := v.isLt
    omega

/-! ### Size and writing -/

theorem foldl_add {α : Type} (f : α → Nat) : ∀ (l : List α) (n : Nat),
    l.foldl (fun (total : Nat) x => total + f x) n = n + (l.map f).sum := by
  intro l
  induction l with
  | nil => simp
  | cons x xs ih => intro n; simp only [List.foldl_cons, ih, List.map_cons, List.sum_cons]; omega

theorem flatMap_const {α : Type} (f : α → List Byte) (k : Nat) (h : ∀ x, (f x).length = k) : ∀ l : List α,
    (l.flatMap f).length = l.length * k := by
  intro l
  induction l with
  | nil => simp
  | cons x xs ih => simp only [List.flatMap_cons, List.length_append, h, ih, List.length_cons, Nat.succ_mul]; omega

theorem getSize_eq : ∀ (t : Ty) (v : t.denote), getSize t v = (enc t v).length := by
  intro t
  induction t with
  | sc s => intro v; simp [getSize, enc, encode_length]
  | vec t ih =>
    intro l
    cases t with
    | sc s =>
      simp only [getSize, enc, List.length_append, i64Bytes_length]
      rw [flatMap_const _ s.size (fun x => encode_length s x)]
    | vec t =>
      simp only [getSize]
      rw [foldl_add]
      simp only [enc_vec, List.length_append, i64Bytes_length, List.length_flatMap]
      congr 2
      apply List.map_congr_left
      intro x _
      rw [ih x]
      simp only [enc_vec, List.length_append, i64Bytes_length, List.length_flatMap]

theorem put_ok {size : Nat} {bs buf : List Byte} (h : buf.length + bs.length ≤ size) :
    put size bs buf = (.ok, buf ++ bs) := by
  rw [put, if_neg (by omega)]

theorem put_fail {size : Nat} {bs buf : List Byte} (h : ¬ buf.length + bs.length ≤ size) (_h0 : 0 < bs.length) :
    put size bs buf = (.internal, buf) := by
  rw [put, if_pos (by omega)]

theorem put_len {size : Nat} {bs buf : List Byte} (h : buf.length ≤ size) :
    (put size bs buf).2.length ≤ size := by
  rw [put]
  split
  · exact h
  · simp only [List.length_append]; omega

theorem serLoop_ok {α : Type} {f : α → List Byte → St × List Byte} {e : α → List Byte} {size : Nat}
    (hf : ∀ x buf, buf.length + (e x).length ≤ size → f x buf = (.ok, buf ++ e x)) :
    ∀ (l : List α) (buf : List Byte), buf.length + (l.flatMap e).length ≤ size →
      serLoop f l buf = (.ok, buf ++ l.flatMap e) := by
  intro l
  induction l with
  | nil => intro buf _; simp [serLoop]
  | cons x xs ih =>
    intro buf h
    simp only [List.flatMap_cons, List.length_append] at h
    rw [serLoop, hf x buf (by omega)]
    simp only
    rw [ih _ (by simp only [List.length_append]; omega)]
    simp

/-- A writer that fails for lack of room says so and never exceeds the size. -/
theorem serLoop_fail {α : Type} {f : α → List Byte → St × List Byte} {e : α → List Byte} {size : Nat}
    (hf : ∀ x buf, buf.length + (e x).length ≤ size → f x buf = (.ok, buf ++ e x))
    (hg : ∀ x buf, buf.length ≤ size → ¬ buf.length + (e x).length ≤ size → (f x buf).1 = .internal ∧ (f x buf).2.length ≤ size) :
    ∀ (l : List α) (buf : List Byte), buf.length ≤ size → ¬ buf.length + (l.flatMap e).length ≤ size →
      (serLoop f l buf).1 = .internal ∧ (serLoop f l buf).2.length ≤ size := by
  intro l
  induction l with
  | nil => intro buf h0 h; simp at h; omega
  | cons x xs ih =>
    intro buf h0 h
    simp only [List.flatMap_cons, List.length_append] at h
    rw [serLoop]
    by_cases hx : buf.length + (e x).length ≤ size
    · rw [hf x buf hx]
      exact ih _ (by simp only [List.length_append]; omega) (by simp only [List.length_append]; omega)
    · obtain ⟨h1, h2⟩ := hg x buf h0 hx
      cases hr : f x buf with
      | mk s b =>
        rw [hr] at h1 h2
        simp only at h1 h2
        subst h1
        exact ⟨rfl, h2⟩

theorem ser_ok {size : Nat} : ∀ (t : Ty) (v : t.denote) (buf : List Byte), buf.length + (enc t v).length ≤ size →
    ser size t v buf = (.ok, buf ++ enc t v) := by
  intro t
  induction t with
  | sc s => intro v buf h; exact put_ok h
  | vec t ih =>
    intro l buf h
    simp only [enc_vec, List.length_append, i64Bytes_length] at h
    rw [enc_vec, ser]
    rw [put_ok (by rw [i64Bytes_length]; omega)]
    simp only
    rw [serLoop_ok (e := enc t) (fun x b hb => ih x b hb) l _ (by simp only [List.length_append, i64Bytes_length]; omega)]
    simp

theorem encode_pos (s : Sc) (v : s.denote) : 0 < (s.encode v).length := by
  rw [encode_length]; cases s <;> decide

theorem ser_fail {size : Nat} : ∀ (t : Ty) (v : t.denote) (buf : List Byte), buf.length ≤ size →
    ¬ buf.length + (enc t v).length ≤ size →
    (ser size t v buf).1 = .internal ∧ (ser size t v buf).2.length ≤ size := by
  intro t
  induction t with
  | sc s =>
    intro v buf h0 h
    simp only [ser, enc_sc] at h ⊢
    rw [put_fail h (encode_pos s v)]
    exact ⟨rfl, h0⟩
  | vec t ih =>
    intro l buf h0 h
    simp only [enc_vec, List.length_append, i64Bytes_length] at h
    simp only [ser]
    by_cases hc : buf.length + 8 ≤ size
    · rw [put_ok (by rw [i64Bytes_length]; omega)]
      exact serLoop_fail (e := enc t) (fun x b hb => ser_ok t x b hb) ih l _
        (by simp only [List.length_append, i64Bytes_length]; omega)
        (by simp only [List.length_append, i64Bytes_length]; omega)
    · rw [put_fail (by rw [i64Bytes_length]; omega) (by rw [i64Bytes_length]; omega)]
      exact ⟨rfl, h0⟩

/-! ### Reading -/

theorem readAt_mid (pre b post : List Byte) : readAt (pre ++ b ++ post) pre.length b.length = some b := by
  rw [readAt, if_pos (by simp only [List.length_append]; omega)]
  simp

theorem resize_length {α : Type} (d : α) (l : List α) (n : Nat) : (resize d l n).length = n := by
  simp only [resize, List.length_append, List.length_take, List.length_replicate]
  omega

theorem desLoop_ok {α : Type} {f : List Byte → α → Nat → St × α × Nat} {e : α → List Byte}
    {P : α → Prop} (hf : ∀ x init pre post, P x → f (pre ++ e x ++ post) init pre.length = (.ok, x, pre.length + (e x).length)) :
    ∀ (l inits : List α) (pre post : List Byte), inits.length = l.length → (∀ x ∈ l, P x) →
      desLoop (f (pre ++ l.flatMap e ++ post)) inits pre.length = (.ok, l, pre.length + (l.flatMap e).length) := by
  intro l
  induction l with
  | nil =>
    intro inits pre post h _
    have : inits = [] := List.eq_nil_of_length_eq_zero (by simpa using h)
    subst this
    simp [desLoop]
  | cons x xs ih =>
    intro inits pre post h hp
    cases inits with
    | nil => simp at h
    | cons i is =>
      have h1 := hf x i pre (xs.flatMap e ++ post) (hp x (by simp))
      have h2 := ih is (pre ++ e x) post (by simpa using h) (fun y hy => hp y (by simp [hy]))
      simp only [List.flatMap_cons, List.append_assoc, List.length_append] at h1 h2 ⊢
      simp only [desLoop, h1, h2]
      rw [Nat.add_assoc]

/-- Reading a value that was written, whatever surrounds it. -/
theorem des_ok {bits : Nat} (hb : Width bits) : ∀ (t : Ty) (v init : t.denote) (pre post : List Byte), Valid bits t v →
    des bits (pre ++ enc t v ++ post) t init pre.length = (.ok, v, pre.length + (enc t v).length) := by
  intro t
  induction t with
  | sc s =>
    intro v init pre post hv
    first | rw [enc_sc, des] | rw [enc_vec, des]
    rw [if_neg (by simp only [List.length_append, encode_length]; omega)]
    have := readAt_mid pre (s.encode v) post
    rw [encode_length] at this
    rw [this]
    simp only [decode_encode hb s v hv, encode_length]
  | vec t ih =>
    intro l init pre post hv
    obtain ⟨hlen, hv⟩ := hv
    have hlen' : (l.length : Int) < 2 ^ 63 := by
      rcases hb with rfl | rfl <;> simp only [imax, Nat.reduceSub, Nat.reducePow] at hlen <;> omega
    have hc : i64Of (i64Bytes (l.length : Int)) = l.length := i64Of_bytes _ (by omega) hlen'
    have hmin : l.length ≤ (l.flatMap (enc t)).length := by
      clear hlen hlen' hc hv
      induction l with
      | nil => simp
      | cons x xs ihx =>
        have : 0 < (enc t x).length := by
          cases t with
          | sc s => exact encode_pos s x
          | vec t => simp only [enc_vec, List.length_append, i64Bytes_length]; omega
        simp only [List.flatMap_cons, List.length_append, List.length_cons]
        omega
    first | rw [enc_sc, des] | rw [enc_vec, des]
    rw [if_neg (by simp only [List.length_append, i64Bytes_length]; omega)]
    have hr := readAt_mid pre (i64Bytes l.length) (l.flatMap (enc t) ++ post)
    rw [i64Bytes_length] at hr
    simp only [List.append_assoc] at hr ⊢
    rw [hr]
    simp only [hc]
    rw [if_neg (by
      simp only [List.length_append, i64Bytes_length]
      omega)]
    have hn : (l.length : Int).toNat = l.length := by omega
    rw [hn]
    have htake : (resize t.default init l.length).take (imax bits + 1) = resize t.default init l.length :=
      List.take_of_length_le (by rw [resize_length]; omega)
    have hdrop : (resize t.default init l.length).drop (imax bits + 1) = [] :=
      List.drop_eq_nil_of_le (by rw [resize_length]; omega)
    have hloop := desLoop_ok (f := fun bytes x o => des bits bytes t x o) (e := enc t) (P := Valid bits t)
      (fun x init pre post hx => ih x init pre post hx) l (resize t.default init l.length)
      (pre ++ i64Bytes l.length) post (resize_length _ _ _) hv
    simp only [List.append_assoc, List.length_append, i64Bytes_length] at hloop
    rw [htake, hdrop, hloop]
    simp only [resize_length, List.append_nil]
    rw [if_neg (by omega)]
    simp only [List.length_append, i64Bytes_length, Nat.add_assoc]

/-- Where a reader may leave the offset, and that it has no undefined behaviour. -/
def SafeAt (bytes : List Byte) (off : Nat) {α : Type} (r : St × α × Nat) : Prop :=
  (r.1 = .ok ∨ r.1 = .invalidFile) ∧ off ≤ r.2.2 ∧ r.2.2 ≤ bytes.length

theorem desLoop_safe {α : Type} {f : α → Nat → St × α × Nat} {bytes : List Byte}
    (hf : ∀ x off, off ≤ bytes.length → SafeAt bytes off (f x off)) :
    ∀ (l : List α) (off : Nat), off ≤ bytes.length → SafeAt bytes off (desLoop f l off) := by
  intro l
  induction l with
  | nil => intro off h; exact ⟨Or.inl rfl, Nat.le_refl _, h⟩
  | cons x xs ih =>
    intro off h
    have h1 := hf x off h
    rw [desLoop]
    cases hr : f x off with
    | mk s r =>
      obtain ⟨v, o⟩ := r
      rw [hr] at h1
      obtain ⟨h2, h3, h4⟩ := h1
      rcases h2 with h2 | h2 <;> simp only at h2 <;> subst h2
      · simp only
        have h5 := ih o h4
        cases hr2 : desLoop f xs o with
        | mk s2 r2 =>
          rw [hr2] at h5
          obtain ⟨h6, h7, h8⟩ := h5
          exact ⟨h6, Nat.le_trans h3 h7, h8⟩
      · exact ⟨Or.inr rfl, h3, h4⟩

/-- Whatever the bytes are, reading a value of any type ends with success or `invalid_file_data`
and stays within the buffer. -/
theorem des_safe {bits : Nat} (bytes : List Byte) (hlen : bytes.length ≤ imax bits) :
    ∀ (t : Ty) (init : t.denote) (off : Nat), off ≤ bytes.length → SafeAt bytes off (des bits bytes t init off) := by
  intro t
  induction t with
  | sc s =>
    intro init off h
    simp only [des]
    by_cases h1 : off + s.size > bytes.length
    · rw [if_pos h1]; exact ⟨Or.inr rfl, Nat.le_refl _, h⟩
    · rw [if_neg h1, readAt, if_pos (by omega)]
      exact ⟨Or.inl rfl, by show off ≤ off + s.size; omega, by show off + s.size ≤ _; omega⟩
  | vec t ih =>
    intro init off h
    simp only [des]
    by_cases h1 : off + 8 > bytes.length
    · rw [if_pos h1]; exact ⟨Or.inr rfl, Nat.le_refl _, h⟩
    · rw [if_neg h1, readAt, if_pos (by omega)]
      simp only
      generalize i64Of (List.take 8 (List.drop off bytes)) = c
      by_cases h2 : c < 0 ∨ c.toNat > bytes.length - (off + 8)
      · rw [if_pos h2]; exact ⟨Or.inr rfl, by show off ≤ off + 8; omega, by show off + 8 ≤ _; omega⟩
      · rw [if_neg h2]
        have h3 := desLoop_safe (f := fun x o => des bits bytes t x o) (bytes := bytes) (fun x o ho => ih x o ho)
          ((resize t.default init c.toNat).take (imax bits + 1)) (off + 8) (by omega)
        cases hr : desLoop (fun x o => des bits bytes t x o) ((resize t.default init c.toNat).take (imax bits + 1)) (off + 8) with
        | mk s r =>
          obtain ⟨vs, o⟩ := r
          rw [hr] at h3
          obtain ⟨h4, h5, h6⟩ := h3
          simp only at h4 h5 h6
          rcases h4 with rfl | rfl
          · simp only [resize_length]
            rw [if_neg (by omega)]
            exact ⟨Or.inl rfl, by show off ≤ o; omega, h6⟩
          · exact ⟨Or.inr rfl, by show off ≤ o; omega, h6⟩

/-! ### Truncation -/

theorem desLoop_trunc {α : Type} {f : List Byte → α → Nat → St × α × Nat} {e : α → List Byte}
    {P : α → Prop} (hf : ∀ x init pre post, P x → f (pre ++ e x ++ post) init pre.length = (.ok, x, pre.length + (e x).length))
    (ht : ∀ x init pre k, P x → k < (e x).length → (f (pre ++ (e x).take k) init pre.length).1 = .invalidFile) :
    ∀ (l inits : List α) (pre : List Byte) (k : Nat), inits.length = l.length → (∀ x ∈ l, P x) →
      k < (l.flatMap e).length → (desLoop (f (pre ++ (l.flatMap e).take k)) inits pre.length).1 = .invalidFile := by
  intro l
  induction l with
  | nil => intro inits pre k _ _ h; simp at h
  | cons x xs ih =>
    intro inits pre k h hp hk
    cases inits with
    | nil => simp at h
    | cons i is =>
      simp only [List.flatMap_cons, List.length_append] at hk
      rw [List.flatMap_cons, List.take_append, desLoop]
      by_cases hk2 : k < (e x).length
      · have h1 := ht x i pre k (hp x (by simp)) hk2
        rw [show k - (e x).length = 0 by omega, List.take_zero, List.append_nil]
        cases hr : f (pre ++ (e x).take k) i pre.length with
        | mk s r =>
          obtain ⟨v, o⟩ := r
          rw [hr] at h1
          simp only at h1
          subst h1
          rfl
      · rw [List.take_of_length_le (by omega)]
        have h1 := hf x i pre ((xs.flatMap e).take (k - (e x).length)) (hp x (by simp))
        have h2 := ih is (pre ++ e x) (k - (e x).length) (by simpa using h) (fun y hy => hp y (by simp [hy])) (by omega)
        simp only [List.append_assoc, List.length_append] at h1 h2 ⊢
        simp only [h1]
        cases hr : desLoop (f (pre ++ (e x ++ (xs.flatMap e).take (k - (e x).length)))) is (pre.length + (e x).length) with
        | mk s r =>
          rw [hr] at h2
          exact h2

/-- Reading a value of which only the first `k` bytes are present. -/
theorem des_trunc {bits : Nat} (hb : Width bits) : ∀ (t : Ty) (v init : t.denote) (pre : List Byte) (k : Nat),
    Valid bits t v → k < (enc t v).length →
    (des bits (pre ++ (enc t v).take k) t init pre.length).1 = .invalidFile := by
  intro t
  induction t with
  | sc s =>
    intro v init pre k hv hk
    rw [enc_sc, encode_length] at hk
    first | rw [enc_sc, des] | rw [enc_vec, des]
    rw [if_pos (by simp only [List.length_append, List.length_take, encode_length]; omega)]
  | vec t ih =>
    intro l init pre k hv hk
    obtain ⟨hlen, hv⟩ := hv
    have hlen' : (l.length : Int) < 2 ^ 63 := by
      rcases hb with rfl | rfl <;> simp only [imax, Nat.reduceSub, Nat.reducePow] at hlen <;> omega
    have hc : i64Of (i64Bytes (l.length : Int)) = l.length := i64Of_bytes _ (by omega) hlen'
    simp only [enc_vec, List.length_append, i64Bytes_length] at hk
    first | rw [enc_sc, des] | rw [enc_vec, des]
    by_cases hk8 : k < 8
    · rw [if_pos (by simp only [List.length_append, List.length_take, i64Bytes_length]; omega)]
    · rw [if_neg (by simp only [List.length_append, List.length_take, i64Bytes_length]; omega)]
      rw [List.take_append, i64Bytes_length, List.take_of_length_le (l := i64Bytes _) (by rw [i64Bytes_length]; omega)]
      have hr := readAt_mid pre (i64Bytes l.length) ((l.flatMap (enc t)).take (k - 8))
      rw [i64Bytes_length] at hr
      simp only [List.append_assoc] at hr ⊢
      rw [hr]
      simp only [hc]
      have hn : (l.length : Int).toNat = l.length := by omega
      rw [hn]
      by_cases hcnt : (l.length : Int) < 0 ∨ l.length >
          (pre ++ (i64Bytes ↑l.length ++ List.take (k - 8) (List.flatMap (fun x => enc t x) l))).length - (pre.length + 8)
      · rw [if_pos hcnt]
      · rw [if_neg hcnt]
        have htake : (resize t.default init l.length).take (imax bits + 1) = resize t.default init l.length :=
          List.take_of_length_le (by rw [resize_length]; omega)
        rw [htake]
        have hloop := desLoop_trunc (f := fun bytes x o => des bits bytes t x o) (e := enc t) (P := Valid bits t)
          (fun x init pre post hx => des_ok hb t x init pre post hx)
          (fun x init pre k hx hk => ih x init pre k hx hk) l (resize t.default init l.length)
          (pre ++ i64Bytes l.length) (k - 8) (resize_length _ _ _) hv (by omega)
        simp only [List.append_assoc, List.length_append, i64Bytes_length] at hloop
        generalize hg : desLoop _ _ _ = r at hloop ⊢
        obtain ⟨s, vs, o⟩ := r
        simp only at hloop
        subst hloop
        rfl

end Verif.Persist
