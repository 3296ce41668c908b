import Verif.Persist.Codec

namespace Verif.Persist

/-- A codec writes objects satisfying `P` as `e` says, counts that many bytes and reads
them back. -/
structure Lawful (bits : Nat) {α : Type} (c : Codec α) (e : α → List Byte) (P I : α → Prop) : Prop where
  size_ok : ∀ a n, P a → n + (e a).length ≤ imax bits → c.size a n = (.ok, n + (e a).length)
  ser_ok : ∀ size a buf, P a → buf.length + (e a).length ≤ size → c.ser size a buf = (.ok, buf ++ e a)
  /-- whatever the size, the buffer is never exceeded -/
  ser_len : ∀ size a buf, buf.length ≤ size → (c.ser size a buf).2.length ≤ size
  des_ok : ∀ a init pre post, P a → I init →
    c.des (pre ++ e a ++ post) init pre.length = (.ok, a, pre.length + (e a).length)

/-- Besides, it reports lack of room and missing bytes. -/
structure Strict (bits : Nat) {α : Type} (c : Codec α) (e : α → List Byte) (P I : α → Prop) : Prop where
  size_fail : ∀ a n, P a → n ≤ imax bits → ¬ n + (e a).length ≤ imax bits → (c.size a n).1 ≠ .ok
  ser_fail : ∀ size a buf, P a → buf.length ≤ size → ¬ buf.length + (e a).length ≤ size → (c.ser size a buf).1 ≠ .ok
  des_trunc : ∀ a init pre k, P a → I init → k < (e a).length →
    (c.des (pre ++ (e a).take k) init pre.length).1 = .invalidFile

/-- On every input the codec ends in one of the statuses `A` and stays within the buffer. -/
def Safe {α : Type} (bits : Nat) (c : Codec α) (A : St → Prop) : Prop :=
  ∀ (bytes : List Byte) (init : α) (off : Nat), bytes.length ≤ imax bits → off ≤ bytes.length →
    A (c.des bytes init off).1 ∧ off ≤ (c.des bytes init off).2.2 ∧ (c.des bytes init off).2.2 ≤ bytes.length

/-! ### Fields -/

theorem field_lawful {bits : Nat} (hb : Width bits) (t : Ty) :
    Lawful bits (field bits t) (enc t) (Valid bits t) (fun _ => True) where
  size_ok a n _ h := by simp only [field, addSize, getSize_eq]; rw [if_neg (by omega)]
  ser_ok size a buf _ h := ser_ok t a buf h
  ser_len size a buf h := by
    show (ser size t a buf).2.length ≤ size
    by_cases h1 : buf.length + (enc t a).length ≤ size
    · rw [ser_ok t a buf h1]; simpa using h1
    · exact (ser_fail t a buf h h1).2
  des_ok a init pre post h _ := des_ok hb t a init pre post h

theorem field_strict {bits : Nat} (hb : Width bits) (t : Ty) :
    Strict bits (field bits t) (enc t) (Valid bits t) (fun _ => True) where
  size_fail a n _ _ h := by simp only [field, addSize, getSize_eq]; rw [if_pos (by omega)]; simp
  ser_fail size a buf _ h0 h := by
    show (ser size t a buf).1 ≠ .ok
    rw [(ser_fail t a buf h0 h).1]; simp
  des_trunc a init pre k h _ hk := des_trunc hb t a init pre k h hk

def Plain (s : St) : Prop := s = .ok ∨ s = .invalidFile

theorem field_safe (bits : Nat) (t : Ty) : Safe bits (field bits t) Plain :=
  fun bytes init off h h0 => des_safe bytes h t init off h0

/-! ### Sequences -/

section seq
variable {bits : Nat} {α β : Type} {c : Codec α} {d : Codec β} {e : α → List Byte} {f : β → List Byte}
  {P I : α → Prop} {Q J : β → Prop}

theorem seq_lawful (hc : Lawful bits c e P I) (hd : Lawful bits d f Q J) :
    Lawful bits (seq c d) (fun p => e p.1 ++ f p.2) (fun p => P p.1 ∧ Q p.2) (fun p => I p.1 ∧ J p.2) where
  size_ok := by
    rintro ⟨a, b⟩ n ⟨hp, hq⟩ h
    simp only [List.length_append] at h ⊢
    simp only [seq]
    rw [hc.size_ok a n hp (by omega)]
    simp only
    rw [hd.size_ok b _ hq (by omega), Nat.add_assoc]
  ser_ok := by
    rintro size ⟨a, b⟩ buf ⟨hp, hq⟩ h
    simp only [List.length_append] at h ⊢
    simp only [seq]
    rw [hc.ser_ok size a buf hp (by omega)]
    simp only
    rw [hd.ser_ok size b _ hq (by simp only [List.length_append]; omega), List.append_assoc]
  ser_len := by
    rintro size ⟨a, b⟩ buf h
    simp only [seq]
    have h1 := hc.ser_len size a buf h
    cases hr : c.ser size a buf with
    | mk s buf' =>
      rw [hr] at h1
      cases s <;> first | exact hd.ser_len size b buf' h1 | exact h1
  des_ok := by
    rintro ⟨a, b⟩ ⟨ia, ib⟩ pre post ⟨hp, hq⟩ ⟨hi, hj⟩
    have h1 := hc.des_ok a ia pre (f b ++ post) hp hi
    have h2 := hd.des_ok b ib (pre ++ e a) post hq hj
    simp only [List.append_assoc, List.length_append] at h1 h2 ⊢
    simp only [seq, h1, h2, Nat.add_assoc]

theorem seq_strict (hc : Lawful bits c e P I) (hc' : Strict bits c e P I) (hd' : Strict bits d f Q J) :
    Strict bits (seq c d) (fun p => e p.1 ++ f p.2) (fun p => P p.1 ∧ Q p.2) (fun p => I p.1 ∧ J p.2) where
  size_fail := by
    rintro ⟨a, b⟩ n ⟨hp, hq⟩ h0 h
    simp only [List.length_append] at h
    simp only [seq]
    by_cases h1 : n + (e a).length ≤ imax bits
    · rw [hc.size_ok a n hp h1]
      exact hd'.size_fail b _ hq h1 (by omega)
    · have := hc'.size_fail a n hp h0 h1
      cases hr : c.size a n with
      | mk s n' =>
        rw [hr] at this
        cases s <;> simp_all
  ser_fail := by
    rintro size ⟨a, b⟩ buf ⟨hp, hq⟩ h0 h
    simp only [List.length_append] at h
    simp only [seq]
    by_cases h1 : buf.length + (e a).length ≤ size
    · rw [hc.ser_ok size a buf hp h1]
      exact hd'.ser_fail size b _ hq (by simpa using h1) (by simp only [List.length_append]; omega)
    · have := hc'.ser_fail size a buf hp h0 h1
      cases hr : c.ser size a buf with
      | mk s n' =>
        rw [hr] at this
        cases s <;> simp_all
  des_trunc := by
    rintro ⟨a, b⟩ ⟨ia, ib⟩ pre k ⟨hp, hq⟩ ⟨hi, hj⟩ hk
    simp only [List.length_append] at hk
    simp only [seq]
    rw [List.take_append]
    by_cases h1 : k < (e a).length
    · have := hc'.des_trunc a ia pre k hp hi h1
      rw [show k - (e a).length = 0 by omega, List.take_zero, List.append_nil]
      cases hr : c.des (pre ++ (e a).take k) ia pre.length with
      | mk s r =>
        rw [hr] at this
        simp only at this
        subst this
        rfl
    · rw [List.take_of_length_le (by omega)]
      have h2 := hc.des_ok a ia pre ((f b).take (k - (e a).length)) hp hi
      have h3 := hd'.des_trunc b ib (pre ++ e a) (k - (e a).length) hq hj (by omega)
      simp only [List.append_assoc, List.length_append] at h2 h3 ⊢
      simp only [h2]
      exact h3

theorem seq_safe {A : St → Prop} (hc : Safe bits c A) (hd : Safe bits d A) : Safe bits (seq c d) A := by
  rintro bytes ⟨a, b⟩ off hl ho
  have h1 := hc bytes a off hl ho
  simp only [seq]
  cases hr : c.des bytes a off with
  | mk s r =>
    obtain ⟨a', o⟩ := r
    rw [hr] at h1
    obtain ⟨h2, h3, h4⟩ := h1
    simp only at h2 h3 h4
    have h5 := hd bytes b o hl h4
    cases s <;> first
      | (exact ⟨h2, h3, h4⟩)
      | (exact ⟨h5.1, Nat.le_trans h3 h5.2.1, h5.2.2⟩)

end seq

/-! ### Runs of fields -/

def encs : (ts : List Ty) → Vals ts → List Byte
  | [], _ => []
  | t :: ts, (v, vs) => enc t v ++ encs ts vs

def Valids (bits : Nat) : (ts : List Ty) → Vals ts → Prop
  | [], _ => True
  | t :: ts, (v, vs) => Valid bits t v ∧ Valids bits ts vs

def Any (α : Type) : α → Prop := fun _ => True

theorem fields_lawful {bits : Nat} (hb : Width bits) : ∀ ts : List Ty,
    Lawful bits (fields bits ts) (encs ts) (Valids bits ts) (Any _) := by
  intro ts
  induction ts with
  | nil =>
    refine ⟨?_, ?_, ?_, ?_⟩
    · intro a n _ _; rfl
    · intro size a buf _ _; simp [fields, nothing, encs]
    · intro size a buf h; exact h
    · intro a init pre post _ _; simp [fields, nothing, encs]
  | cons t ts ih =>
    have := seq_lawful (field_lawful hb t) ih
    refine ⟨?_, ?_, ?_, ?_⟩
    · rintro ⟨v, vs⟩ n hp h; exact this.size_ok (v, vs) n hp h
    · rintro size ⟨v, vs⟩ buf hp h; exact this.ser_ok size (v, vs) buf hp h
    · rintro size ⟨v, vs⟩ buf h; exact this.ser_len size (v, vs) buf h
    · rintro ⟨v, vs⟩ init pre post hp _; exact this.des_ok (v, vs) init pre post hp ⟨trivial, trivial⟩

theorem fields_strict {bits : Nat} (hb : Width bits) : ∀ ts : List Ty,
    Strict bits (fields bits ts) (encs ts) (Valids bits ts) (Any _) := by
  intro ts
  induction ts with
  | nil =>
    refine ⟨?_, ?_, ?_⟩
    · intro a n _ h0 h; exact absurd h0 h
    · intro size a buf _ h0 h; exact absurd h0 h
    · intro a init pre k _ _ h; simp [encs] at h
  | cons t ts ih =>
    have := seq_strict (field_lawful hb t) (field_strict hb t) ih
    refine ⟨?_, ?_, ?_⟩
    · rintro ⟨v, vs⟩ n hp h0 h; exact this.size_fail (v, vs) n hp h0 h
    · rintro size ⟨v, vs⟩ buf hp h0 h; exact this.ser_fail size (v, vs) buf hp h0 h
    · rintro ⟨v, vs⟩ init pre k hp _ hk
      exact this.des_trunc (v, vs) init pre k hp ⟨trivial, trivial⟩ hk

theorem fields_safe (bits : Nat) : ∀ ts : List Ty, Safe bits (fields bits ts) Plain := by
  intro ts
  induction ts with
  | nil => intro bytes init off _ h; exact ⟨Or.inl rfl, Nat.le_refl _, h⟩
  | cons t ts ih => exact seq_safe (field_safe bits t) ih

/-! ### Checks after reading -/

section guarded
variable {bits : Nat} {α : Type} {c : Codec α} {e : α → List Byte} {P I : α → Prop} {check : α → St}

theorem guarded_lawful (hc : Lawful bits c e P I) :
    Lawful bits (guarded c check) e (fun a => P a ∧ check a = .ok) I where
  size_ok a n hp h := hc.size_ok a n hp.1 h
  ser_ok size a buf hp h := hc.ser_ok size a buf hp.1 h
  ser_len size a buf h := hc.ser_len size a buf h
  des_ok a init pre post hp hi := by
    simp only [guarded, hc.des_ok a init pre post hp.1 hi, hp.2]

theorem guarded_strict (hc : Strict bits c e P I) :
    Strict bits (guarded c check) e (fun a => P a ∧ check a = .ok) I where
  size_fail a n hp h0 h := hc.size_fail a n hp.1 h0 h
  ser_fail size a buf hp h0 h := hc.ser_fail size a buf hp.1 h0 h
  des_trunc a init pre k hp hi hk := by
    have := hc.des_trunc a init pre k hp.1 hi hk
    simp only [guarded]
    cases hr : c.des (pre ++ List.take k (e a)) init pre.length with
    | mk s r => rw [hr] at this; simp only at this; subst this; rfl

theorem guarded_safe {A : St → Prop} (hc : Safe bits c A) (hA : ∀ a, A (check a)) : Safe bits (guarded c check) A := by
  intro bytes init off hl ho
  have h1 := hc bytes init off hl ho
  simp only [guarded]
  cases hr : c.des bytes init off with
  | mk s r =>
    obtain ⟨a', o⟩ := r
    rw [hr] at h1
    cases s <;> first | exact h1 | exact ⟨hA a', h1.2⟩

end guarded

/-! ### Counted items -/

section items
variable {bits : Nat} {α β : Type} {c : Codec α} {d : Codec β} {e : α → List Byte} {f : β → List Byte}
  {P I : α → Prop} {Q J : β → Prop} {it : Items α β}

theorem sizeLoop_ok (hd : Lawful bits d f Q J) : ∀ (l : List β) (n : Nat), (∀ x ∈ l, Q x) →
    n + (l.flatMap f).length ≤ imax bits → serLoop d.size l n = (.ok, n + (l.flatMap f).length) := by
  intro l
  induction l with
  | nil => intro n _ _; rfl
  | cons x xs ih =>
    intro n hq h
    simp only [List.flatMap_cons, List.length_append] at h ⊢
    rw [serLoop, hd.size_ok x n (hq x (by simp)) (by omega)]
    simp only
    rw [ih _ (fun y hy => hq y (by simp [hy])) (by omega), Nat.add_assoc]

theorem sizeLoop_fail (hd : Lawful bits d f Q J) (hd' : Strict bits d f Q J) : ∀ (l : List β) (n : Nat), (∀ x ∈ l, Q x) →
    n ≤ imax bits → ¬ n + (l.flatMap f).length ≤ imax bits → (serLoop d.size l n).1 ≠ .ok := by
  intro l
  induction l with
  | nil => intro n _ h0 h; exact absurd h0 h
  | cons x xs ih =>
    intro n hq h0 h
    simp only [List.flatMap_cons, List.length_append] at h
    rw [serLoop]
    by_cases h1 : n + (f x).length ≤ imax bits
    · rw [hd.size_ok x n (hq x (by simp)) h1]
      exact ih _ (fun y hy => hq y (by simp [hy])) h1 (by omega)
    · have := hd'.size_fail x n (hq x (by simp)) h0 h1
      cases hr : d.size x n with
      | mk s n' => rw [hr] at this; cases s <;> simp_all

theorem serLoop_ok' (hd : Lawful bits d f Q J) {size : Nat} : ∀ (l : List β) (buf : List Byte), (∀ x ∈ l, Q x) →
    buf.length + (l.flatMap f).length ≤ size → serLoop (d.ser size) l buf = (.ok, buf ++ l.flatMap f) := by
  intro l
  induction l with
  | nil => intro buf _ _; simp [serLoop]
  | cons x xs ih =>
    intro buf hq h
    simp only [List.flatMap_cons, List.length_append] at h ⊢
    rw [serLoop, hd.ser_ok size x buf (hq x (by simp)) (by omega)]
    simp only
    rw [ih _ (fun y hy => hq y (by simp [hy])) (by simp only [List.length_append]; omega), List.append_assoc]

theorem serLoop_fail' (hd : Lawful bits d f Q J) (hd' : Strict bits d f Q J) {size : Nat} : ∀ (l : List β) (buf : List Byte),
    (∀ x ∈ l, Q x) → buf.length ≤ size → ¬ buf.length + (l.flatMap f).length ≤ size → (serLoop (d.ser size) l buf).1 ≠ .ok := by
  intro l
  induction l with
  | nil => intro n _ h0 h; exact absurd h0 h
  | cons x xs ih =>
    intro buf hq h0 h
    simp only [List.flatMap_cons, List.length_append] at h
    rw [serLoop]
    by_cases h1 : buf.length + (f x).length ≤ size
    · rw [hd.ser_ok size x buf (hq x (by simp)) h1]
      exact ih _ (fun y hy => hq y (by simp [hy])) (by simpa using h1) (by simp only [List.length_append]; omega)
    · have := hd'.ser_fail size x buf (hq x (by simp)) h0 h1
      cases hr : d.ser size x buf with
      | mk s n' => rw [hr] at this; cases s <;> simp_all

theorem serLoop_len (hd : ∀ size a buf, buf.length ≤ size → (d.ser size a buf).2.length ≤ size) {size : Nat} :
    ∀ (l : List β) (buf : List Byte), buf.length ≤ size → (serLoop (d.ser size) l buf).2.length ≤ size := by
  intro l
  induction l with
  | nil => intro buf h; exact h
  | cons x xs ih =>
    intro buf h
    have h1 := hd size x buf h
    rw [serLoop]
    cases hr : d.ser size x buf with
    | mk s b =>
      rw [hr] at h1
      cases s <;> first | exact ih b h1 | exact h1

/-- Objects for which the header's count is the number of items, all checks pass and the
allocation succeeds. -/
def ItemsValid (it : Items α β) (P : α → Prop) (Q : β → Prop) (p : α × List β) : Prop :=
  P p.1 ∧ (∀ x ∈ p.2, Q x) ∧ it.count p.1 = p.2.length ∧ it.pre p.1 = .ok ∧ it.post p.1 = .ok ∧
    p.2.length ≤ it.lim ∧ it.alloc p.2.length = true

/-- The vector holds the requested number of items after resizing. -/
def FreshOk (it : Items α β) (J : β → Prop) : Prop :=
  ∀ l n, (it.fresh l n).length = n ∧ ∀ x ∈ it.fresh l n, J x

theorem desLoop_ok' (hd : Lawful bits d f Q J) :
    ∀ (l inits : List β) (pre post : List Byte), inits.length = l.length → (∀ x ∈ l, Q x) → (∀ x ∈ inits, J x) →
      desLoop (d.des (pre ++ l.flatMap f ++ post)) inits pre.length = (.ok, l, pre.length + (l.flatMap f).length) := by
  intro l
  induction l with
  | nil =>
    intro inits pre post h _ _
    have : inits = [] := List.eq_nil_of_length_eq_zero (by simpa using h)
    subst this
    simp [desLoop]
  | cons x xs ih =>
    intro inits pre post h hp hj
    cases inits with
    | nil => simp at h
    | cons i is =>
      have h1 := hd.des_ok x i pre (xs.flatMap f ++ post) (hp x (by simp)) (hj i (by simp))
      have h2 := ih is (pre ++ f x) post (by simpa using h) (fun y hy => hp y (by simp [hy])) (fun y hy => hj y (by simp [hy]))
      simp only [List.flatMap_cons, List.append_assoc, List.length_append] at h1 h2 ⊢
      simp only [desLoop, h1, h2]
      rw [Nat.add_assoc]

theorem desLoop_trunc' (hd : Lawful bits d f Q J) (hd' : Strict bits d f Q J) :
    ∀ (l inits : List β) (pre : List Byte) (k : Nat), inits.length = l.length → (∀ x ∈ l, Q x) → (∀ x ∈ inits, J x) →
      k < (l.flatMap f).length → (desLoop (d.des (pre ++ (l.flatMap f).take k)) inits pre.length).1 = .invalidFile := by
  intro l
  induction l with
  | nil => intro inits pre k _ _ _ h; simp at h
  | cons x xs ih =>
    intro inits pre k h hp hj hk
    cases inits with
    | nil => simp at h
    | cons i is =>
      simp only [List.flatMap_cons, List.length_append] at hk
      rw [List.flatMap_cons, List.take_append, desLoop]
      by_cases hk2 : k < (f x).length
      · have h1 := hd'.des_trunc x i pre k (hp x (by simp)) (hj i (by simp)) hk2
        rw [show k - (f x).length = 0 by omega, List.take_zero, List.append_nil]
        cases hr : d.des (pre ++ (f x).take k) i pre.length with
        | mk s r =>
          obtain ⟨v, o⟩ := r
          rw [hr] at h1
          simp only at h1
          subst h1
          rfl
      · rw [List.take_of_length_le (by omega)]
        have h1 := hd.des_ok x i pre ((xs.flatMap f).take (k - (f x).length)) (hp x (by simp)) (hj i (by simp))
        have h2 := ih is (pre ++ f x) (k - (f x).length) (by simpa using h) (fun y hy => hp y (by simp [hy]))
          (fun y hy => hj y (by simp [hy])) (by omega)
        simp only [List.append_assoc, List.length_append] at h1 h2 ⊢
        simp only [h1]
        cases hr : desLoop (d.des (pre ++ (f x ++ (xs.flatMap f).take (k - (f x).length)))) is (pre.length + (f x).length) with
        | mk s r =>
          rw [hr] at h2
          exact h2

theorem items_lawful (hc : Lawful bits c e P I) (hd : Lawful bits d f Q J) (hf : FreshOk it J) :
    Lawful bits (items c d it) (fun p => e p.1 ++ p.2.flatMap f) (ItemsValid it P Q) (fun p => I p.1) where
  size_ok := by
    rintro ⟨a, l⟩ n ⟨hp, hq, hn, -⟩ h
    simp only at hp hq hn
    simp only [List.length_append] at h ⊢
    have hn' : (it.count a).toNat = l.length := by omega
    simp only [items]
    rw [hc.size_ok a n hp (by omega)]
    simp only [hn']
    rw [if_neg (by omega), List.take_length, sizeLoop_ok hd l _ hq (by omega), Nat.add_assoc]
  ser_ok := by
    rintro size ⟨a, l⟩ buf ⟨hp, hq, hn, -⟩ h
    simp only at hp hq hn
    simp only [List.length_append] at h ⊢
    have hn' : (it.count a).toNat = l.length := by omega
    simp only [items]
    rw [hc.ser_ok size a buf hp (by omega)]
    simp only [hn']
    rw [if_neg (by omega), List.take_length, serLoop_ok' hd l _ hq (by simp only [List.length_append]; omega), List.append_assoc]
  ser_len := by
    rintro size ⟨a, l⟩ buf h
    have h1 := hc.ser_len size a buf h
    simp only [items]
    cases hr : c.ser size a buf with
    | mk s b =>
      rw [hr] at h1
      cases s <;> first
        | exact h1
        | (simp only
           split
           · exact h1
           · exact serLoop_len hd.ser_len _ b h1)
  des_ok := by
    rintro ⟨a, l⟩ ⟨ia, il⟩ pre post ⟨hp, hq, hn, h1, h2, h3, h4⟩ hi
    simp only at hp hq hn h1 h2 h3 h4 hi
    have hn' : (it.count a).toNat = l.length := by omega
    have k1 := hc.des_ok a ia pre (l.flatMap f ++ post) hp hi
    obtain ⟨hf1, hf2⟩ := hf il l.length
    have k2 := desLoop_ok' hd l (it.fresh il l.length) (pre ++ e a) post hf1 hq hf2
    simp only [List.append_assoc, List.length_append] at k1 k2 ⊢
    simp only [items, k1, h1, h2, hn', ne_eq, not_true_eq_false, if_false]
    rw [if_neg (by omega), if_neg (by rw [h4]; simp), k2]
    simp only [Nat.add_assoc]

theorem items_strict (hc : Lawful bits c e P I) (hc' : Strict bits c e P I) (hd : Lawful bits d f Q J)
    (hd' : Strict bits d f Q J) (hf : FreshOk it J) :
    Strict bits (items c d it) (fun p => e p.1 ++ p.2.flatMap f) (ItemsValid it P Q) (fun p => I p.1) where
  size_fail := by
    rintro ⟨a, l⟩ n ⟨hp, hq, hn, -⟩ h0 h
    simp only at hp hq hn
    simp only [List.length_append] at h
    have hn' : (it.count a).toNat = l.length := by omega
    simp only [items]
    by_cases h1 : n + (e a).length ≤ imax bits
    · rw [hc.size_ok a n hp h1]
      simp only [hn']
      rw [if_neg (by omega), List.take_length]
      exact sizeLoop_fail hd hd' l _ hq h1 (by omega)
    · have := hc'.size_fail a n hp h0 h1
      cases hr : c.size a n with
      | mk s n' => rw [hr] at this; cases s <;> simp_all
  ser_fail := by
    rintro size ⟨a, l⟩ buf ⟨hp, hq, hn, -⟩ h0 h
    simp only at hp hq hn
    simp only [List.length_append] at h
    have hn' : (it.count a).toNat = l.length := by omega
    simp only [items]
    by_cases h1 : buf.length + (e a).length ≤ size
    · rw [hc.ser_ok size a buf hp h1]
      simp only [hn']
      rw [if_neg (by omega), List.take_length]
      exact serLoop_fail' hd hd' l _ hq (by simpa using h1) (by simp only [List.length_append]; omega)
    · have := hc'.ser_fail size a buf hp h0 h1
      cases hr : c.ser size a buf with
      | mk s n' => rw [hr] at this; cases s <;> simp_all
  des_trunc := by
    rintro ⟨a, l⟩ ⟨ia, il⟩ pre k ⟨hp, hq, hn, h1, h2, h3, h4⟩ hi hk
    simp only at hp hq hn h1 h2 h3 h4 hi
    simp only [List.length_append] at hk
    have hn' : (it.count a).toNat = l.length := by omega
    simp only [items]
    rw [List.take_append]
    by_cases hk1 : k < (e a).length
    · have := hc'.des_trunc a ia pre k hp hi hk1
      rw [show k - (e a).length = 0 by omega, List.take_zero, List.append_nil]
      cases hr : c.des (pre ++ (e a).take k) ia pre.length with
      | mk s r =>
        rw [hr] at this
        simp only at this
        subst this
        rfl
    · rw [List.take_of_length_le (by omega)]
      have k1 := hc.des_ok a ia pre ((l.flatMap f).take (k - (e a).length)) hp hi
      obtain ⟨hf1, hf2⟩ := hf il l.length
      have k2 := desLoop_trunc' hd hd' l (it.fresh il l.length) (pre ++ e a) (k - (e a).length) hf1 hq hf2 (by omega)
      simp only [List.append_assoc, List.length_append] at k1 k2 ⊢
      simp only [k1, h1, h2, hn', ne_eq, not_true_eq_false, if_false]
      rw [if_neg (by omega), if_neg (by rw [h4]; simp)]
      exact k2

theorem desLoop_safe' {A : St → Prop} {bytes : List Byte} (hA : A .ok)
    {g : β → Nat → St × β × Nat}
    (hg : ∀ x off, off ≤ bytes.length → A (g x off).1 ∧ off ≤ (g x off).2.2 ∧ (g x off).2.2 ≤ bytes.length) :
    ∀ (l : List β) (off : Nat), off ≤ bytes.length →
      A (desLoop g l off).1 ∧ off ≤ (desLoop g l off).2.2 ∧ (desLoop g l off).2.2 ≤ bytes.length := by
  intro l
  induction l with
  | nil => intro off h; exact ⟨hA, Nat.le_refl _, h⟩
  | cons x xs ih =>
    intro off h
    have h1 := hg x off h
    simp only [desLoop]
    cases hr : g x off with
    | mk s r =>
      obtain ⟨v, o⟩ := r
      rw [hr] at h1
      obtain ⟨h2, h3, h4⟩ := h1
      have h5 := ih o h4
      cases s <;> first
        | exact ⟨h2, h3, h4⟩
        | exact ⟨h5.1, Nat.le_trans h3 h5.2.1, h5.2.2⟩

/-- Reading counted items may, besides, run out of memory or throw. -/
theorem items_safe {A : St → Prop} (hc : Safe bits c A) (hd : Safe bits d A) (hA : A .ok)
    (h1 : ∀ a, A (it.pre a)) (h2 : ∀ a, A (it.post a)) (h3 : A .exc) (h4 : A .memory) : Safe bits (items c d it) A := by
  rintro bytes ⟨a, l⟩ off hl ho
  have k1 := hc bytes a off hl ho
  simp only [items]
  cases hr : c.des bytes a off with
  | mk s r =>
    obtain ⟨a', o⟩ := r
    rw [hr] at k1
    obtain ⟨k2, k3, k4⟩ := k1
    simp only at k2 k3 k4
    have k5 := desLoop_safe' hA (fun x o ho => hd bytes x o hl ho) (it.fresh l (it.count a').toNat) o k4
    cases s <;> first
      | exact ⟨k2, k3, k4⟩
      | (simp only
         split
         · exact ⟨h1 a', k3, k4⟩
         · split
           · exact ⟨h3, k3, k4⟩
           · split
             · exact ⟨h4, k3, k4⟩
             · split
               · exact ⟨h2 a', k3, k4⟩
               · exact ⟨k5.1, Nat.le_trans k3 k5.2.1, k5.2.2⟩)

end items

end Verif.Persist
