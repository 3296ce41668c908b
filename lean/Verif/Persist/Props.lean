import Verif.Persist.Trunc
/-
C12: a saved option registry loads back identically
C13: model files round-trip
C14: a damaged model file is refused, never over-read
C15: the buffer size computed before saving is the size that is written
C46: training data kept by reference is saved as the matrix of the user
-/
set_option linter.unusedSimpArgs false
namespace Verif.Persist

/-! ### C13 -/

/-- C13, one value of any supported type: if writing it succeeds, some bytes are appended to the
buffer, and wherever these bytes stand in a file, reading gives the value and the position behind
them. -/
theorem C13_value_round_trip {bits : Nat} (hb : Width bits) (size : Nat) (t : Ty) (v : t.denote) (buf : List Byte)
    (hv : Valid bits t v) (h0 : buf.length ≤ size) (h : (ser size t v buf).1 = .ok) :
    ∃ bs, (ser size t v buf).2 = buf ++ bs ∧
      ∀ init pre post, des bits (pre ++ bs ++ post) t init pre.length = (.ok, v, pre.length + bs.length) := by
  by_cases h1 : buf.length + (enc t v).length ≤ size
  · refine ⟨enc t v, by rw [ser_ok t v buf h1], fun init pre post => des_ok hb t v init pre post hv⟩
  · rw [(ser_fail t v buf h0 h1).1] at h
    cases h

/-- C13, any sequence of values, including 64-bit programs reading what 32-bit programs wrote. -/
theorem C13_sequence_round_trip {bits bits' : Nat} (hb : Width bits) (hb' : Width bits') (hw : WidthOk bits bits')
    (size : Nat) (ts : List Ty) (vs : Vals ts) (buf : List Byte) (hv : Valids bits ts vs) (h0 : buf.length ≤ size)
    (h : ((fields bits ts).ser size vs buf).1 = .ok) :
    ∃ bs, ((fields bits ts).ser size vs buf).2 = buf ++ bs ∧
      ∀ init pre post, (fields bits' ts).des (pre ++ bs ++ post) init pre.length = (.ok, vs, pre.length + bs.length) := by
  by_cases h1 : buf.length + (encs ts vs).length ≤ size
  · exact ⟨encs ts vs, by rw [(fields_lawful hb ts).ser_ok size vs buf hv h1],
      fun init pre post => (fields_lawful hb' ts).des_ok vs init pre post (valids_mono (width_le hb hb' hw) ts vs hv) trivial⟩
  · exact absurd h ((fields_ss hb ts).ser_fail size vs buf hv h0 h1)

/-- C13, whole files: if `da_handle_save` succeeds, `da_handle_load` of the file (followed by
anything) succeeds and gives a handle of the same type holding the same data. -/
theorem C13_file_round_trip {bits bits' : Nat} (hb : Width bits) (hb' : Width bits') (hw : WidthOk bits bits') (mach : Mach)
    (regs : Int → Int → Reg) (k : Kind) (m : Meta) (r : Reg) (a : Obj k (realOf m.prec)) (post : List Byte)
    (hk : k ≠ .other) (ht : kindOf m.typ = some k) (hm : MetaValid bits m) (hr : RegValid bits r) (hn : (r.map (·.1)).Nodup)
    (hc : Compat (regs m.typ m.prec) r) (ha : ValidObj bits mach k _ a)
    (h : (saveFile bits (codec bits mach k _) m r a).1 = .ok) :
    ∃ r', loadFile bits' mach regs ((saveFile bits (codec bits mach k _) m r a).2.1 ++ post) =
      (.ok, some ⟨k, realOf m.prec, r', a⟩) := by
  rw [saveFile_enc hb mach k hk _ m r a hm ha h]
  exact ⟨_, loadFile_ok hb hb' hw mach regs k hk m r a post hm ht hr hn hc ha⟩

/-- A matrix of doubles as a vector of vectors: 8 + (8 + 2 * 8) + 8 bytes. -/
example : (ser 1000 (.vec (.vec (.sc .f64))) [[(1 : Fin (2 ^ 64)), (2 : Fin (2 ^ 64))], []] []).1 = .ok ∧
    (ser 1000 (.vec (.vec (.sc .f64))) [[(1 : Fin (2 ^ 64)), (2 : Fin (2 ^ 64))], []] []).2.length = 40 := by decide +kernel

/-- A negative integer is read back after other bytes, by a program with 32-bit integers too. -/
example : (des 32 ([7, 7] ++ (ser 100 (.sc .int) (-5 : Int) []).2 ++ [1]) (.sc .int) (0 : Int) 2) = (.ok, (-5 : Int), 10) := by decide +kernel

/-- A file of a program with 64-bit integers is refused by one with 32-bit integers. -/
theorem C13_wide_file_refused (m : Meta) (hm : MetaValid 64 m) (haocl : m.aocl.length ≤ imax 32) (mach : Mach) (regs : Int → Int → Reg) (post : List Byte) :
    (loadFile 32 mach regs (metaEnc 64 m ++ post)).1 = .invalidFile := by
  have hb : Width 32 := Or.inl rfl
  have h1 := des_ok hb .str keyword [] [] (encs metaTys (metaVals 64 m) ++ post) (keyword_valid hb)
  have hv : Valids 32 metaTys (metaVals 64 m) := by
    obtain ⟨h1, h2, h3⟩ := hm
    simp only [metaTys, metaVals, Valids, Valid, minVersion]
    refine ⟨by decide, by decide, h1, ?_, ⟨haocl, fun _ _ => trivial⟩, trivial⟩
    rcases h2 with h | h <;> rw [h] <;> decide
  have h2 := (fields_lawful hb metaTys).des_ok (metaVals 64 m) (vdef _) (enc .str keyword) post hv trivial
  simp only [List.nil_append, List.append_assoc, List.length_nil, Nat.zero_add] at h1 h2
  have h3 : metaDes 32 (metaEnc 64 m ++ post) 0 = (.invalidFile, (minVersion, m), (enc .str keyword).length + (encs metaTys (metaVals 64 m)).length) := by
    rw [metaEnc, List.append_assoc, metaDes, h1]
    dsimp only
    rw [if_neg (by simp), if_neg (by simp), h2]
    rfl
  rw [loadFile, if_neg (by simp [metaEnc_ne]), h3]

/-! ### C12 -/

/-- C12: whatever the order in which the options are visited, writing a registry and reading it
into one that has the same options (with any values) restores every value and leaves options that
were not written as they were. -/
theorem C12_registry_round_trip {bits : Nat} (hb : Width bits) (size : Nat) (r fresh : Reg) (buf pre post : List Byte)
    (hv : RegValid bits r) (hn : (r.map (·.1)).Nodup) (hc : Compat fresh r) (h0 : buf.length ≤ size)
    (h : (regSer size r buf).1 = .ok) :
    ∃ bs r', (regSer size r buf).2 = buf ++ bs ∧ regDes bits (pre ++ bs ++ post) fresh pre.length = (.ok, r', pre.length + bs.length) ∧
      (∀ key v, r.get key = some v → r'.get key = some v) ∧ (∀ key, r.get key = none → r'.get key = fresh.get key) := by
  have h1 : buf.length + (regEnc r).length ≤ size := by
    by_contra h1
    rw [(regSer_fail r buf h0 h1).1] at h
    cases h
  refine ⟨regEnc r, setAll fresh r, by rw [regSer_ok r buf h1], regDes_ok hb r fresh pre post hc hn hv, ?_, ?_⟩
  · intro key v hg
    rw [setAll_get r fresh hc hn key, hg]
    rfl
  · intro key hg
    rw [setAll_get r fresh hc hn key, hg]
    rfl

/-- Two options, the new registry having them in the other order with other values. -/
def exReg : Reg := [([97], ⟨.sc .int, (3 : Int)⟩), ([98, 99], ⟨.str, [120, 121]⟩)]
def exFresh : Reg := [([98, 99], ⟨.str, []⟩), ([97], ⟨.sc .int, (0 : Int)⟩)]

example : (regSer 1000 exReg []).1 = .ok ∧ (regDes 64 (regSer 1000 exReg []).2 exFresh 0).1 = .ok ∧
    ((regDes 64 (regSer 1000 exReg []).2 exFresh 0).2.1).map (·.1) = [[98, 99], [97]] := by decide +kernel

/-- C12 for files: the loaded handle has the options of the saved one. -/
theorem C12_file_options {bits bits' : Nat} (hb : Width bits) (hb' : Width bits') (hw : WidthOk bits bits') (mach : Mach)
    (regs : Int → Int → Reg) (k : Kind) (m : Meta) (r : Reg) (a : Obj k (realOf m.prec))
    (hk : k ≠ .other) (ht : kindOf m.typ = some k) (hm : MetaValid bits m) (hr : RegValid bits r) (hn : (r.map (·.1)).Nodup)
    (hc : Compat (regs m.typ m.prec) r) (hsame : ∀ key, (regs m.typ m.prec).get key ≠ none → r.get key ≠ none)
    (ha : ValidObj bits mach k _ a) (h : (saveFile bits (codec bits mach k _) m r a).1 = .ok) :
    ∃ L, loadFile bits' mach regs (saveFile bits (codec bits mach k _) m r a).2.1 = (.ok, some L) ∧
      ∀ key, L.opts.get key = r.get key := by
  rw [saveFile_enc hb mach k hk _ m r a hm ha h]
  have h1 := loadFile_ok hb hb' hw mach regs k hk m r a [] hm ht hr hn hc ha
  rw [List.append_nil] at h1
  refine ⟨_, h1, fun key => ?_⟩
  dsimp only
  rw [setAll_get r _ hc hn key]
  cases hg : r.get key with
  | some v => rfl
  | none =>
    have h2 := hsame key
    cases hf : (regs m.typ m.prec).get key with
    | none => rfl
    | some v => rw [hf] at h2; exact absurd hg (h2 (by simp))

/-! ### C15 -/

/-- C15, any sequence of values: the dry run adds exactly the number of bytes that is written. -/
theorem C15_sequence_size {bits : Nat} (hb : Width bits) (ts : List Ty) (vs : Vals ts) (hv : Valids bits ts vs) (n n' : Nat)
    (hn : n ≤ imax bits) (h : (fields bits ts).size vs n = (.ok, n')) (buf : List Byte) (hbuf : buf.length = n) :
    ∃ out, (fields bits ts).ser n' vs buf = (.ok, out) ∧ out.length = n' := by
  by_cases h1 : n + (encs ts vs).length ≤ imax bits
  · rw [(fields_lawful hb ts).size_ok vs n hv h1] at h
    cases h
    refine ⟨_, (fields_lawful hb ts).ser_ok _ vs buf hv (by omega), ?_⟩
    simp [hbuf]
  · have := (fields_strict hb ts).size_fail vs n hv hn h1
    rw [h] at this
    exact absurd rfl this

/-- C15, files: if saving succeeds, the number of bytes written is the number reserved. -/
theorem C15_file_size {bits : Nat} (hb : Width bits) (mach : Mach) (k : Kind) (f : Sc) (m : Meta) (r : Reg) (a : Obj k f)
    (hk : k ≠ .other) (hm : MetaValid bits m) (ha : ValidObj bits mach k f a)
    (h : (saveFile bits (codec bits mach k f) m r a).1 = .ok) :
    (saveFile bits (codec bits mach k f) m r a).2.1.length = (saveFile bits (codec bits mach k f) m r a).2.2 := by
  rw [saveFile_enc hb mach k hk f m r a hm ha h]

/-- C15: if the handle fits into the largest size, saving succeeds. -/
theorem C15_saves {bits : Nat} (hb : Width bits) (mach : Mach) (k : Kind) (f : Sc) (m : Meta) (r : Reg) (a : Obj k f)
    (hk : k ≠ .other) (hm : MetaValid bits m) (ha : ValidObj bits mach k f a)
    (hl : metaSize m + regSize r + (encObj k f a).length ≤ imax bits) :
    (saveFile bits (codec bits mach k f) m r a).1 = .ok := by
  rw [saveFile_ok hb mach k hk f m r a hm ha]
  simp only [fileEnc, List.length_append]
  rw [metaSize_eq bits, regSize_eq] at hl
  exact hl

/-- C15: whatever the handle contains, successful or not, saving never writes more bytes than were
reserved. -/
theorem C15_no_overflow {bits : Nat} (hb : Width bits) (mach : Mach) (k : Kind) (f : Sc) (m : Meta) (r : Reg) (a : Obj k f) :
    (saveFile bits (codec bits mach k f) m r a).2.1.length ≤ (saveFile bits (codec bits mach k f) m r a).2.2 :=
  saveFile_len hb mach k f m r a

example : regSize exReg = (regSer 1000 exReg []).2.length := by decide +kernel

/-- With one byte too little nothing is written beyond the reserved size, and the failure is
reported. -/
example : (regSer (regSize exReg - 1) exReg []).1 = .internal ∧ (regSer (regSize exReg - 1) exReg []).2.length ≤ regSize exReg - 1 := by
  decide +kernel

/-! ### C46: training data -/

/-- Element `(i, j)` of a matrix. -/
def elem {δ : Type} (X : Nat → δ) (colMajor : Bool) (ld i j : Nat) : δ :=
  if colMajor then X (j * ld + i) else X (i * ld + j)

/-- The element of the loaded matrix: the vector is used with the smallest leading dimension
(kernel_pca.cpp 1104-1110, approximate_neighbors.cpp 1424-1428). -/
def loadedElem {δ : Type} (l : List δ) (colMajor : Bool) (m n i j : Nat) : Option δ :=
  if colMajor then l[j * m + i]? else l[i * n + j]?

/-- The matrix is written with `serialize_user_data` into a buffer with room (of any contents), and
read as a vector. -/
def Reload (bits size : Nat) (s : Sc) (X : Nat → s.denote) (colMajor : Bool) (m n ld : Nat) (buf : List Byte) (l : List s.denote) : Prop :=
  ∃ out o, userSer size s (some X) colMajor m n ld buf = (.ok, out) ∧ des bits out (.vec (.sc s)) [] buf.length = (.ok, l, o)

/-- A saved and loaded matrix has the elements of the original. -/
def C46_statement : Prop :=
  ∀ (bits : Nat), Width bits → ∀ (size : Nat) (s : Sc) (X : Nat → s.denote) (colMajor : Bool) (m n ld : Nat) (buf : List Byte),
    (if colMajor then m ≤ ld else n ≤ ld) → (∀ i, Valid bits (.sc s) (X i)) → m * n ≤ imax bits →
    buf.length + 8 + m * n * s.size ≤ size →
    ∃ l, Reload bits size s X colMajor m n ld buf l ∧
      ∀ i j, i < m → j < n → loadedElem l colMajor m n i j = some (elem X colMajor ld i j)

/-- What is read is what `serialize_user_data` takes for the matrix. -/
theorem C46_reload {bits : Nat} (hb : Width bits) (size : Nat) (s : Sc) (X : Nat → s.denote) (colMajor : Bool) (m n ld : Nat) (buf : List Byte)
    (hv : ∀ i, Valid bits (.sc s) (X i)) (hmn : m * n ≤ imax bits) (hs : buf.length + 8 + m * n * s.size ≤ size) (l : List s.denote) :
    Reload bits size s X colMajor m n ld buf l ↔ l = saved (some X) colMajor m n ld := by
  have h1 : (enc (.vec (.sc s)) (saved (some X) colMajor m n ld)).length = 8 + m * n * s.size := by
    rw [← getSize_eq]
    simp only [getSize, saved, packed_length]
  have hv' : Valid bits (.vec (.sc s)) (saved (some X) colMajor m n ld) := by
    refine ⟨by simpa only [saved, packed_length] using hmn, ?_⟩
    intro x hx
    simp only [saved, packed] at hx
    generalize (if n = 1 then true else colMajor) = c at hx
    cases c <;> simp only [if_true, Bool.false_eq_true, if_false, List.mem_flatMap, List.mem_map] at hx <;>
      (obtain ⟨i, -, j, -, rfl⟩ := hx; exact hv _)
  have h2 := userSer_ok (size := size) (some X) colMajor m n ld buf (by rw [h1]; omega)
  have h3 := des_ok hb (.vec (.sc s)) (saved (some X) colMajor m n ld) [] buf [] hv'
  rw [List.append_nil] at h3
  constructor
  · rintro ⟨out, o, h4, h5⟩
    rw [h2] at h4
    cases h4
    rw [h3] at h5
    simp only [Prod.mk.injEq, true_and] at h5
    exact h5.1.symm
  · rintro rfl
    exact ⟨_, _, h2, h3⟩

/-- It does not: for a row-major matrix with one column and padding, `serialize_user_data` takes
the first `m` consecutive numbers. -/
theorem C46_violated : ¬ C46_statement := by
  intro h
  have hx : ∀ i : Nat, Valid 64 (.sc .bool) (decide (i = 1)) := fun _ => trivial
  obtain ⟨l, h1, h2⟩ := h 64 (Or.inr rfl) 10 .bool (fun i => decide (i = 1)) false 2 1 2 [] (by decide) hx (by decide) (by decide)
  rw [C46_reload (Or.inr rfl) 10 .bool _ false 2 1 2 [] hx (by decide) (by decide)] at h1
  subst h1
  have := h2 1 0 (by decide) (by decide)
  revert this
  decide

theorem flatMap_get {δ : Type} (g : Nat → List δ) (k : Nat) (hg : ∀ i, (g i).length = k) : ∀ n i j, i < n → j < k →
    ((List.range n).flatMap g)[i * k + j]? = (g i)[j]? := by
  intro n
  induction n with
  | zero => intro i j h; omega
  | succ n ih =>
    intro i j hi hj
    rw [List.range_succ, List.flatMap_append]
    have hl := flatMap_range_length g k hg n
    by_cases h : i < n
    · rw [List.getElem?_append_left]
      · exact ih i j h hj
      · rw [hl]
        have := Nat.mul_le_mul_right k (show i + 1 ≤ n from h)
        rw [Nat.add_mul] at this
        omega
    · obtain rfl : i = n := by omega
      rw [List.getElem?_append_right (by rw [hl]; omega), hl]
      simp

theorem saved_elem (s : Sc) (X : Nat → s.denote) (colMajor : Bool) (m n ld : Nat)
    (hx : colMajor = true ∨ n ≠ 1 ∨ ld = 1 ∨ m ≤ 1) (i j : Nat) (hi : i < m) (hj : j < n) :
    loadedElem (saved (some X) colMajor m n ld) colMajor m n i j = some (elem X colMajor ld i j) := by
  simp only [saved, packed, loadedElem, elem]
  cases colMajor with
  | true =>
    simp only [if_true, ite_self]
    rw [flatMap_get _ m (by simp) n j i hj hi]
    simp [hi]
  | false =>
    by_cases h1 : n = 1
    · subst h1
      obtain rfl : j = 0 := by omega
      simp only [if_true, Bool.false_eq_true, if_false, Nat.mul_one, Nat.add_zero]
      have h2 := flatMap_get (fun i => (List.range m).map fun j => X (i * ld + j)) m (by simp) 1 0 i (by omega) hi
      simp only [Nat.zero_mul, Nat.zero_add] at h2 ⊢
      rw [h2]
      rcases hx with h | h | h | h
      · cases h
      · exact absurd rfl h
      · subst h; simp [hi]
      · obtain rfl : i = 0 := by omega
        simp [hi]
    · simp only [if_neg h1, Bool.false_eq_true, if_false]
      rw [flatMap_get _ n (by simp) m i j hi hj]
      simp [hj]

/-- C46 except for that case: the loaded matrix is the original one unless it is row-major with one
column, at least two rows, and padding.  In reserve mode the number of bytes is counted exactly. -/
theorem C46_training_data_partial {bits : Nat} (hb : Width bits) (size : Nat) (s : Sc) (X : Nat → s.denote) (colMajor : Bool) (m n ld : Nat)
    (buf : List Byte) (hv : ∀ i, Valid bits (.sc s) (X i)) (hmn : m * n ≤ imax bits) (hs : buf.length + 8 + m * n * s.size ≤ size)
    (hx : colMajor = true ∨ n ≠ 1 ∨ ld = 1 ∨ m ≤ 1) :
    ∃ l, Reload bits size s X colMajor m n ld buf l ∧
      ∀ i j, i < m → j < n → loadedElem l colMajor m n i j = some (elem X colMajor ld i j) :=
  ⟨_, (C46_reload hb size s X colMajor m n ld buf hv hmn hs _).2 rfl,
    fun i j hi hj => saved_elem s X colMajor m n ld hx i j hi hj⟩

/-- The dry run of `serialize_user_data` counts the bytes it writes. -/
theorem C15_user_data_size {bits : Nat} (s : Sc) (X : Option (Nat → s.denote)) (colMajor : Bool) (m n ld total : Nat) (buf : List Byte)
    (hbuf : buf.length = total) (h : total + 8 + m * n * s.size ≤ imax bits) :
    ∃ n' out, userSize bits s X m n total = (.ok, n') ∧ userSer n' s X colMajor m n ld buf = (.ok, out) ∧ out.length = n' := by
  have h1 : (enc (.vec (.sc s)) (saved X colMajor m n ld)).length ≤ 8 + m * n * s.size := by
    rw [← getSize_eq]
    cases X <;> simp [getSize, saved, packed_length]
  refine ⟨_, _, userSize_ok X colMajor m n ld total (by omega), userSer_ok X colMajor m n ld buf (by omega), ?_⟩
  simp [hbuf]

example : loadedElem (saved (some (fun i : Nat => (i : Int)) : Option (Nat → Sc.int.denote)) false 2 2 3) false 2 2 1 0 = some (3 : Int) := by decide

/-- The exception is exact: there the second row is wrong for some data. -/
theorem C46_extent (s : Sc) (v w : s.denote) (hvw : v ≠ w) (m ld : Nat) (hm : 2 ≤ m) (hld : 2 ≤ ld) :
    ∃ X : Nat → s.denote, loadedElem (saved (some X) false m 1 ld) false m 1 1 0 ≠ some (elem X false ld 1 0) := by
  refine ⟨fun i => if i = 1 then v else w, ?_⟩
  simp only [saved, packed, loadedElem, elem, if_true, Bool.false_eq_true, if_false]
  have h2 := flatMap_get (fun i => (List.range m).map fun j => (fun i => if i = 1 then v else w) (i * ld + j)) m (by simp) 1 0 1 (by omega) (by omega)
  simp only [Nat.zero_mul, Nat.zero_add] at h2
  simp only [Nat.one_mul, Nat.add_zero]
  rw [h2]
  have : ld ≠ 1 := by omega
  simp [this, hvw, show 1 < m by omega]

/-! ### C14 -/

/-- C14 for whole files: whatever the bytes, loading ends regularly, with the status
`invalid_file_data` if the file is a saved file cut short. -/
def C14_statement : Prop :=
  ∀ (bits : Nat), Width bits → ∀ (mach : Mach) (regs : Int → Int → Reg),
    (∀ bytes, bytes.length ≤ imax bits → (loadFile bits mach regs bytes).1 ≠ .ub ∧ (loadFile bits mach regs bytes).1 ≠ .exc) ∧
    (∀ (k : Kind) (m : Meta) (r : Reg) (a : Obj k (realOf m.prec)) (n : Nat), k ≠ .other → kindOf m.typ = some k →
      MetaValid bits m → RegValid bits r → (r.map (·.1)).Nodup → Compat (regs m.typ m.prec) r → ValidObj bits mach k _ a →
      (saveFile bits (codec bits mach k _) m r a).1 = .ok → n < (saveFile bits (codec bits mach k _) m r a).2.1.length →
      (loadFile bits mach regs ((saveFile bits (codec bits mach k _) m r a).2.1.take n)).1 = .invalidFile)

def mach0 : Mach := ⟨1000, fun _ => true⟩

/-- An unknown handle type in an otherwise good file: a null pointer is used. -/
theorem C14_unknown_type (bits : Nat) (hb : Width bits) (mach : Mach) (regs : Int → Int → Reg) (m : Meta) (post : List Byte)
    (hm : MetaValid bits m) (ht : kindOf m.typ = none) :
    (loadFile bits mach regs (metaEnc bits m ++ post)).1 = .ub := by
  have h1 := metaDes_ok hb hb (Or.inl rfl) hm [] post
  simp only [List.nil_append, List.length_nil, Nat.zero_add] at h1
  rw [loadFile, if_neg (by simp [metaEnc_ne]), h1]
  dsimp only
  rw [ht]

/-- A forest whose number of trees is negative: `resize` throws `std::length_error`. -/
theorem C14_negative_count (bits : Nat) (hb : Width bits) (mach : Mach) (regs : Int → Int → Reg) (m : Meta) (a : Vals forestTys)
    (post : List Byte) (hm : MetaValid bits m) (ht : m.typ = 6) (ha : Valids bits forestTys a) (hneg : vint forestTys a 5 < 0) :
    (loadFile bits mach regs (metaEnc bits m ++ regEnc [] ++ encs forestTys a ++ post)).1 = .exc := by
  have h1 := metaDes_ok hb hb (Or.inl rfl) hm [] (regEnc [] ++ encs forestTys a ++ post)
  have h2 := regDes_ok hb [] (regs m.typ m.prec) (metaEnc bits m) (encs forestTys a ++ post) (by intro p hp; cases hp) (by simp)
    ⟨Nat.zero_le _, by intro p hp; cases hp⟩
  have h3 := (fields_lawful hb forestTys).des_ok a (vdef _) (metaEnc bits m ++ regEnc []) post ha trivial
  simp only [List.nil_append, List.append_assoc, List.length_append, List.length_nil, Nat.zero_add] at h1 h2 h3
  rw [loadFile, if_neg (by simp [metaEnc_ne])]
  simp only [List.append_assoc]
  have hk : kindOf m.typ = some .forest := by rw [ht]; rfl
  rw [h1]
  dsimp only
  rw [hk]
  dsimp only
  rw [if_neg (by simp), h2]
  dsimp only
  exact items_exc h3 rfl hneg

/-- A nearest neighbours model with a k-d tree over two samples, for the examples below. -/
def nnMeta : Meta := ⟨8, 8, []⟩

def nnFields : Vals (nnTys .f64) :=
  ((0 : Int), (2 : Int), (1 : Int), true, false, false, false, [], false, false, false, (1 : Int), (1 : Int), (1 : Int), (1 : Int),
    (0 : Int), (0 : Int), false, (0 : Fin (2 ^ 64)), (2 : Int), (1 : Int), (2 : Int), (0 : Fin (2 ^ 64)), [], [], [], false, false,
    (0 : Int), false, (0 : Int), (0 : Int), false, (0 : Fin (2 ^ 64)), (0 : Fin (2 ^ 64)), [(0 : Fin (2 ^ 64)), (1 : Fin (2 ^ 64))], [], [], ())

def nnHeader : Vals (btTys .f64) :=
  ((30 : Int), [(0 : Int), (1 : Int)], (0 : Int), (0 : Int), (0 : Fin (2 ^ 64)), (0 : Fin (2 ^ 64)), [], (1 : Int), (2 : Int), ())

def nnRoot : BT (Vals (kdNodeTys .f64)) :=
  .node 0 ((0 : Int), (2 : Int), true, (0 : Int), (0 : Int), [], [], ()) .nil .nil

def nnObj : Obj .nn (realOf nnMeta.prec) := (nnFields, .kd (nnHeader, nnRoot))

/-- The same file, cut behind the count of the indices of the tree, is accepted: the failure to read
the header of the tree is forgotten, and the next byte is taken for "there is no root". -/
theorem C14_truncated_tree :
    (saveFile 64 (codec 64 mach0 .nn (realOf nnMeta.prec)) nnMeta [] nnObj).1 = .ok ∧
    (loadFile 64 mach0 (fun _ _ => []) (saveFile 64 (codec 64 mach0 .nn (realOf nnMeta.prec)) nnMeta [] nnObj).2.1).1 = .ok ∧
    ∃ n, n < (saveFile 64 (codec 64 mach0 .nn (realOf nnMeta.prec)) nnMeta [] nnObj).2.1.length ∧
      (loadFile 64 mach0 (fun _ _ => []) ((saveFile 64 (codec 64 mach0 .nn (realOf nnMeta.prec)) nnMeta [] nnObj).2.1.take n)).1 = .ok := by
  refine ⟨by decide +kernel, by decide +kernel, (metaEnc 64 nnMeta).length + (regEnc []).length + (encs (nnTys .f64) nnFields).length + 17, ?_⟩
  decide +kernel

theorem nnObj_valid : ValidObj 64 mach0 .nn (realOf nnMeta.prec) nnObj := by
  have h2 : vint (nnTys .f64) nnFields 13 = 1 := rfl
  refine ⟨?_, ?_⟩
  · simp only [nnObj, nnFields, nnTys, Valids, Valid]
    refine ⟨by decide +kernel, by decide +kernel, by decide +kernel, ?_⟩
    repeat' apply And.intro
    all_goals first | exact True.intro | decide +kernel | (intro x hx; exact True.intro) | (intro x hx; cases hx)
  · show ValidNN 64 .f64 (vint (nnTys .f64) nnFields 13) (.kd (nnHeader, nnRoot))
    rw [h2, ValidNN, if_pos rfl]
    refine ⟨?_, ?_, trivial⟩
    · simp only [nnHeader, btTys, Valids, Valid]
      repeat' apply And.intro
      all_goals first | exact True.intro | decide +kernel | (intro x hx; exact True.intro)
    · have h3 : vlen (btTys .f64) nnHeader 1 = 2 := rfl
      simp only [nnRoot, ValidBT, h3, kdNodeTys, Valids, Valid]
      repeat' apply And.intro
      all_goals first | exact True.intro | decide +kernel | (intro x hx; exact True.intro)

/-- So the second half of the statement fails as well. -/
theorem C14_truncated_violated :
    ¬ ∀ (mach : Mach) (regs : Int → Int → Reg) (k : Kind) (m : Meta) (r : Reg) (a : Obj k (realOf m.prec)) (n : Nat), k ≠ .other →
      kindOf m.typ = some k → MetaValid 64 m → RegValid 64 r → (r.map (·.1)).Nodup → Compat (regs m.typ m.prec) r →
      ValidObj 64 mach k _ a → (saveFile 64 (codec 64 mach k _) m r a).1 = .ok →
      n < (saveFile 64 (codec 64 mach k _) m r a).2.1.length →
      (loadFile 64 mach regs ((saveFile 64 (codec 64 mach k _) m r a).2.1.take n)).1 = .invalidFile := by
  intro h
  obtain ⟨h1, -, n, h2, h3⟩ := C14_truncated_tree
  have hm : MetaValid 64 nnMeta := ⟨by decide +kernel, Or.inr rfl, by decide +kernel⟩
  have h4 := h mach0 (fun _ _ => []) .nn nnMeta [] nnObj n (by simp) rfl hm
    ⟨Nat.zero_le _, by intro p hp; cases hp⟩ (by simp) (by intro p hp; cases hp) nnObj_valid h1 h2
  rw [h3] at h4
  cases h4

theorem C14_violated : ¬ C14_statement := by
  intro h
  have h1 := ((h 64 (Or.inr rfl) mach0 (fun _ _ => [])).1 (metaEnc 64 ⟨99, 8, []⟩ ++ []) (by decide)).1
  refine h1 (C14_unknown_type 64 (Or.inr rfl) _ _ _ _ ?_ rfl)
  exact ⟨⟨by decide, by decide⟩, Or.inr rfl, by decide⟩

/-- Reading one value of any type from arbitrary bytes: success or `invalid_file_data`, and neither
the reads nor the position leave the bytes.  (`ub` stands for a read beyond the bytes or an overflow
of the loop counter.) -/
theorem C14_value_safe {bits : Nat} (bytes : List Byte) (hlen : bytes.length ≤ imax bits) (t : Ty) (init : t.denote) (off : Nat)
    (h : off ≤ bytes.length) :
    ((des bits bytes t init off).1 = .ok ∨ (des bits bytes t init off).1 = .invalidFile) ∧
      off ≤ (des bits bytes t init off).2.2 ∧ (des bits bytes t init off).2.2 ≤ bytes.length :=
  des_safe bytes hlen t init off h

/-- A vector whose element count is negative or larger than the number of bytes that follow is
refused. -/
theorem C14_bad_count_refused {bits : Nat} (t : Ty) (init : List t.denote) (pre bs post : List Byte) (h8 : bs.length = 8)
    (hbad : i64Of bs < 0 ∨ i64Of bs > (post.length : Int)) :
    (des bits (pre ++ bs ++ post) (.vec t) init pre.length).1 = .invalidFile := by
  simp only [des]
  rw [if_neg (by simp only [List.length_append]; omega)]
  have h1 : readAt (pre ++ bs ++ post) pre.length 8 = some bs := by
    simp only [readAt]
    rw [if_pos (by simp only [List.length_append]; omega), List.append_assoc, List.drop_left, ← h8, List.take_left]
  rw [h1]
  dsimp only
  rw [if_pos]
  simp only [List.length_append]
  omega

example : (des 64 (i64Bytes (-1) ++ [1, 2, 3]) (.vec (.sc .char)) [] 0).1 = .invalidFile ∧
    (des 64 (i64Bytes 4 ++ [1, 2, 3]) (.vec (.sc .char)) [] 0).1 = .invalidFile ∧
    (des 64 (i64Bytes 3 ++ [1, 2, 3]) (.vec (.sc .char)) [] 0).1 = .ok := by decide +kernel

/-- The kinds of handles that hold nodes, trees or classifiers. -/
def HasItems : Kind → Prop
  | .tree | .forest | .svm => True
  | _ => False

theorem obj_plain (bits : Nat) (m : Mach) (f : Sc) : ∀ k, k ≠ .other → ¬ HasItems k → Safe bits (codec bits m k f) Plain
  | .linmod, _, _ => fields_safe bits _
  | .pca, _, _ => fields_safe bits _
  | .kmeans, _, _ => fields_safe bits _
  | .ann, _, _ => fields_safe bits _
  | .kpca, _, _ => fields_safe bits _
  | .nn, _, _ => dep_safe (fields_safe bits (nnTys f)) (fun _ => nnTree_safe bits f _)
  | .other, h, _ => absurd rfl h
  | .tree, _, h => absurd trivial h
  | .forest, _, h => absurd trivial h
  | .svm, _, h => absurd trivial h

/-- C14 for arbitrary bytes, as far as it holds: the type of handle being known, loading never reads
beyond the bytes; and it ends with success, `invalid_file_data`, or for special reasons:
`invalid_input` only for an empty file, `version` for a file of another version, `not_implemented`
for handles that cannot be saved, `memory_error`, `unknown_query` (SVM model) or an exception only for
handles with nodes, trees or classifiers. -/
theorem C14_any_bytes_partial {bits : Nat} (mach : Mach) (regs : Int → Int → Reg) (bytes : List Byte) (hlen : bytes.length ≤ imax bits)
    (hk : (metaDes bits bytes 0).1 = .ok → kindOf (metaDes bits bytes 0).2.1.2.typ ≠ none) :
    (loadFile bits mach regs bytes).1 ≠ .ub ∧
    ((loadFile bits mach regs bytes).1 = .ok ∨ (loadFile bits mach regs bytes).1 = .invalidFile ∨
      ((loadFile bits mach regs bytes).1 = .invalidInput ∧ bytes = []) ∨
      (loadFile bits mach regs bytes).1 = .version ∨
      ((loadFile bits mach regs bytes).1 = .notImplemented ∧ kindOf (metaDes bits bytes 0).2.1.2.typ = some .other) ∨
      (((loadFile bits mach regs bytes).1 = .memory ∨ (loadFile bits mach regs bytes).1 = .unknownQuery ∨
        (loadFile bits mach regs bytes).1 = .exc) ∧ ∃ k, kindOf (metaDes bits bytes 0).2.1.2.typ = some k ∧ HasItems k)) := by
  suffices hs : (loadFile bits mach regs bytes).1 = .ok ∨ (loadFile bits mach regs bytes).1 = .invalidFile ∨
      ((loadFile bits mach regs bytes).1 = .invalidInput ∧ bytes = []) ∨
      (loadFile bits mach regs bytes).1 = .version ∨
      ((loadFile bits mach regs bytes).1 = .notImplemented ∧ kindOf (metaDes bits bytes 0).2.1.2.typ = some .other) ∨
      (((loadFile bits mach regs bytes).1 = .memory ∨ (loadFile bits mach regs bytes).1 = .unknownQuery ∨
        (loadFile bits mach regs bytes).1 = .exc) ∧ ∃ k, kindOf (metaDes bits bytes 0).2.1.2.typ = some k ∧ HasItems k) by
    refine ⟨?_, hs⟩
    intro hu
    simp [hu] at hs
  revert hk
  simp only [loadFile]
  by_cases h0 : bytes = []
  · rw [if_pos h0]; intro _; exact Or.inr (Or.inr (Or.inl ⟨rfl, h0⟩))
  · rw [if_neg h0]
    have h1 := metaDes_safe bytes hlen 0 (Nat.zero_le _)
    cases hm : metaDes bits bytes 0 with
    | mk s q =>
      obtain ⟨⟨ver, m⟩, o⟩ := q
      rw [hm] at h1
      obtain ⟨p1, q1, r1⟩ := h1
      simp only at p1 q1 r1
      intro hk
      rcases p1 with rfl | rfl | rfl
      · dsimp only at hk ⊢
        cases hk' : kindOf m.typ with
        | none => exact absurd hk' (hk rfl)
        | some k =>
          dsimp only
          split
          · exact Or.inr (Or.inr (Or.inr (Or.inl rfl)))
          · have h2 := regDes_safe bytes hlen (regs m.typ m.prec) o r1
            cases hr : regDes bits bytes (regs m.typ m.prec) o with
            | mk s q =>
              obtain ⟨r, o1⟩ := q
              rw [hr] at h2
              obtain ⟨p2, q2, r2⟩ := h2
              simp only at p2 q2 r2
              rcases p2 with rfl | rfl
              · dsimp only
                by_cases ho : k = .other
                · subst ho
                  exact Or.inr (Or.inr (Or.inr (Or.inr (Or.inl ⟨rfl, rfl⟩))))
                · by_cases hi : HasItems k
                  · rcases (obj_safe bits mach (realOf m.prec) k ho bytes (freshObj _ _) o1 hlen r2).1 with h | h | h | h | h
                    · exact Or.inl h
                    · exact Or.inr (Or.inl h)
                    · exact Or.inr (Or.inr (Or.inr (Or.inr (Or.inr ⟨Or.inl h, k, rfl, hi⟩))))
                    · exact Or.inr (Or.inr (Or.inr (Or.inr (Or.inr ⟨Or.inr (Or.inl h), k, rfl, hi⟩))))
                    · exact Or.inr (Or.inr (Or.inr (Or.inr (Or.inr ⟨Or.inr (Or.inr h), k, rfl, hi⟩))))
                  · rcases (obj_plain bits mach (realOf m.prec) k ho hi bytes (freshObj _ _) o1 hlen r2).1 with h | h
                    · exact Or.inl h
                    · exact Or.inr (Or.inl h)
              · exact Or.inr (Or.inl rfl)
      · exact Or.inr (Or.inl rfl)
      · exact Or.inr (Or.inr (Or.inr (Or.inl rfl)))

/-- C14 for files cut short: a saved file, cut anywhere but inside the header of a search tree, is
refused with `invalid_file_data`.  (An empty file gives `invalid_input`.) -/
theorem C14_truncated_partial {bits bits' : Nat} (hb : Width bits) (hb' : Width bits') (hw : WidthOk bits bits') (mach : Mach)
    (regs : Int → Int → Reg) (k : Kind) (m : Meta) (r : Reg) (a : Obj k (realOf m.prec)) (n : Nat)
    (hk : k ≠ .other) (ht : kindOf m.typ = some k) (hm : MetaValid bits m) (hr : RegValid bits r) (hn : (r.map (·.1)).Nodup)
    (hc : Compat (regs m.typ m.prec) r) (ha : ValidObj bits mach k _ a)
    (h : (saveFile bits (codec bits mach k _) m r a).1 = .ok) (h0 : 0 < n)
    (hl : n < (saveFile bits (codec bits mach k _) m r a).2.1.length)
    (hcut : ¬ (metaSize m + regSize r ≤ n ∧ CutInTreeHeader (realOf m.prec) k a (n - (metaSize m + regSize r)))) :
    (loadFile bits' mach regs ((saveFile bits (codec bits mach k _) m r a).2.1.take n)).1 = .invalidFile := by
  rw [saveFile_enc hb mach k hk _ m r a hm ha h] at hl ⊢
  refine loadFile_cut hb hb' hw mach regs k m r a n hm ht hr hn hc h0 hl ?_
  rw [metaSize_eq bits, regSize_eq] at hcut
  intro j hj hj'
  exact obj_trunc hb' _ mach k hk a _ j (validObj_mono (width_le hb hb' hw) mach _ k a ha) hj (by
    rw [hj', List.length_append, Nat.add_sub_cancel_left] at hcut
    exact fun hc => hcut ⟨by omega, hc⟩)

/-- The model of the examples, cut one byte before its end. -/
example : (loadFile 64 mach0 (fun _ _ => []) ((saveFile 64 (codec 64 mach0 .nn (realOf nnMeta.prec)) nnMeta [] nnObj).2.1.take
    ((saveFile 64 (codec 64 mach0 .nn (realOf nnMeta.prec)) nnMeta [] nnObj).2.1.length - 1))).1 = .invalidFile := by decide +kernel

end Verif.Persist
