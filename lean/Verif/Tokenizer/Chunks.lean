/-
Whole files: without lines that are shorter than the line before, the result does not depend on the limits of the
buffers and on the cutting of the file.
-/
import Verif.Tokenizer.Run

namespace Verif.Tokenizer
variable {g : Cfg}

theorem loop_all (hcfg : g.skipEmptyLines = true → g.delimWhitespace = true) {m : Mode} :
    ∀ (xs pre : List Nat) (fuel : Nat) (p : P), 2 * xs.length ≤ fuel → Fine g p →
      (m = raw ∨ (m = code ∧ Room p xs.length ∧ (xs.foldl (feed g) p).lineFields.Pairwise (· ≤ ·))) →
      loop g m fuel pre xs p = some (.ok (xs.foldl (feed g) p)) ∧ Fine g (xs.foldl (feed g) p) ∧
        (Room p xs.length → Room (xs.foldl (feed g) p) 0) ∧ p.lineFields <+: (xs.foldl (feed g) p).lineFields
  | [], pre, fuel, p, _, hf, _ => ⟨by cases fuel <;> rfl, hf, fun r => r, List.prefix_refl _⟩
  | c :: xs, pre, fuel, p, hlen, hf, hr => by
    rw [List.length_cons] at hlen hr ⊢
    rw [List.foldl_cons] at hr ⊢
    obtain ⟨fuel, rfl⟩ : ∃ f, fuel = f + 2 := ⟨fuel - 2, by omega⟩
    -- the byte without limits
    obtain ⟨-, -, -, b2, b3, b4⟩ := loop_byte hcfg (m := raw) hf (c := c) (rest := xs) (pre := pre) (n := xs.length) (fuel := fuel) (Or.inl rfl)
    obtain ⟨-, -, -, e4⟩ := loop_all hcfg (m := raw) xs (c :: pre) (2 * xs.length) (feed g p c) (Nat.le_refl _) b2 (Or.inl rfl)
    have hr1 : m = raw ∨ (m = code ∧ Room p (xs.length + 1) ∧ (feed g p c).lineFields.Pairwise (· ≤ ·)) := by
      rcases hr with h | ⟨h, r, hm⟩
      · exact Or.inl h
      · exact Or.inr ⟨h, r, mono_prefix e4 hm⟩
    obtain ⟨k, -, a1, a2, a3, a4⟩ := loop_byte hcfg hf (rest := xs) (pre := pre) (fuel := fuel) hr1
    have hr2 : m = raw ∨ (m = code ∧ Room (feed g p c) xs.length ∧ (xs.foldl (feed g) (feed g p c)).lineFields.Pairwise (· ≤ ·)) := by
      rcases hr with h | ⟨h, r, hm⟩
      · exact Or.inl h
      · exact Or.inr ⟨h, a3 r, hm⟩
    obtain ⟨c1, c2, c3, c4⟩ := loop_all hcfg xs (c :: pre) (fuel + k) (feed g p c) (by omega) a2 hr2
    exact ⟨a1.trans c1, c2, fun r => c3 (a3 r), a4.trans c4⟩

/-! ### Limits -/

def setCaps (a b c : Nat) (p : P) : P := { p with streamCap := a, wordsCap := b, linesCap := c }

theorem rawOp_caps (a b k c : Nat) (p : P) (o : Op) : rawOp c (setCaps a b k p) o = setCaps a b k (rawOp c p o) := by
  cases o with
  | endLine =>
    unfold rawOp setCaps
    dsimp only
    by_cases hs : p.state.skipping = true
    · rw [if_pos hs, if_pos hs]
    · rw [if_neg hs, if_neg hs]
  | _ => rfl

theorem ops_caps (a b k c : Nat) : ∀ (l : List Op) (p : P), l.foldl (rawOp c) (setCaps a b k p) = setCaps a b k (l.foldl (rawOp c) p)
  | [], _ => rfl
  | o :: l, p => by rw [List.foldl_cons, List.foldl_cons, rawOp_caps, ops_caps]

theorem feed_caps (a b k c : Nat) (p : P) : feed g (setCaps a b k p) c = setCaps a b k (feed g p c) := by
  unfold feed
  dsimp only
  rw [show (setCaps a b k p).state = p.state from rfl, show (setCaps a b k p).fileLines = p.fileLines from rfl, ops_caps]
  cases (act g p.state (g.skip p.fileLines) c).2 with
  | again => exact ops_caps a b k c _ _
  | _ => rfl

theorem run_caps (a b k : Nat) : ∀ (xs : List Nat) (p : P), xs.foldl (feed g) (setCaps a b k p) = setCaps a b k (xs.foldl (feed g) p)
  | [], _ => rfl
  | x :: xs, p => by rw [List.foldl_cons, List.foldl_cons, feed_caps, run_caps]

theorem growLoop_gt (need : Nat) : ∀ k cap, need < cap + k → (cap = 0 → need + 1 < cap + k) → need < growLoop need k cap
  | 0, cap, h, _ => by unfold growLoop; omega
  | k + 1, cap, h, h0 => by
    unfold growLoop
    by_cases c : need ≥ cap
    · rw [if_pos c]
      by_cases z : cap = 0
      · rw [if_pos z]
        exact growLoop_gt need k 2 (by omega) (by omega)
      · rw [if_neg z]
        exact growLoop_gt need k (2 * cap) (by omega) (by omega)
    · rw [if_neg c]; omega

theorem grow_gt (need cap : Nat) : need < grow need cap := growLoop_gt need (need + 2) cap (by omega) (by omega)

theorem makeSpace_room (p : P) (n : Nat) : Room (makeSpace p n) n := by
  refine ⟨?_, ?_, ?_⟩
  · show p.stream.length + n < grow (p.stream.length + 2 * n) p.streamCap
    have := grow_gt (p.stream.length + 2 * n) p.streamCap
    omega
  · show p.words.length + n < grow ((if p.words.length + n < 3 then 3 - n - 1 else p.words.length) + n) p.wordsCap
    have := grow_gt ((if p.words.length + n < 3 then 3 - n - 1 else p.words.length) + n) p.wordsCap
    split at this <;> rename_i h
    · rw [if_pos h]; omega
    · rw [if_neg h]; omega
  · show p.lineFields.length + n + 1 < grow (p.lineFields.length + 1 + n) p.linesCap
    have := grow_gt (p.lineFields.length + 1 + n) p.linesCap
    omega

theorem makeSpace_caps (p : P) (n : Nat) : ∃ a b k, makeSpace p n = setCaps a b k p := ⟨_, _, _, rfl⟩

theorem Room.mono {p : P} {n k : Nat} (h : Room p n) (hk : k ≤ n) : Room p k :=
  ⟨by have := h.stream; omega, by have := h.words; omega, by have := h.lines; omega⟩

/-! ### The end of the file -/

/-- The end without limits: whether it is regular, and the parser. -/
def close (p : P) : Bool × P :=
  match p.state with
  | .startRecord | .whitespaceLine | .eatCrnlNop | .eatLineComment => (true, { p with state := .finished })
  | .escapeInQuotedField | .inQuotedField | .escapedChar => (false, { p with state := .finished })
  | .inField | .startField | .quoteInQuotedField => (true, { rawOp 0 (rawOp 0 p .field) .endLine with state := .finished })
  | _ => (true, { rawOp 0 p .endLine with state := .finished })

theorem endField_code {p : P} (h1 : p.stream.length < p.streamCap) (h2 : p.words.length < p.wordsCap) : endField code p = .ok (rawOp 0 p .field) := by
  unfold endField
  rw [if_neg (by simp [code]; omega), if_neg (by simp [code]; omega)]
  rfl

theorem endLine_code {p : P} (h3 : p.lineFields.length + 1 < p.linesCap) (h4 : (rawOp 0 p .endLine).lineFields.Pairwise (· ≤ ·)) :
    endLine code p = .ok (rawOp 0 p .endLine) := by
  unfold rawOp at h4 ⊢
  unfold endLine
  dsimp only at h4 ⊢
  by_cases hs : p.state.skipping = true
  · rw [if_pos hs, if_pos hs]
  · rw [if_neg hs] at h4 ⊢
    rw [if_neg hs]
    have hle := last_le h4
    have e : (if code.pad then p.lineFields.getLast?.getD 0 - p.curFields else 0) = 0 := by
      rw [if_pos (show code.pad = true from rfl)]; omega
    rw [e, if_pos rfl]
    rw [if_neg (by simp [code]; omega)]
    rfl

theorem eof_mode {m : Mode} {p : P} (h : m = raw ∨ (m = code ∧ Room p 0 ∧ (close p).2.lineFields.Pairwise (· ≤ ·))) :
    handleEof m p = .done (close p).1 (close p).2 := by
  have hL : ∀ q : P, (m = raw ∨ (m = code ∧ q.lineFields.length + 1 < q.linesCap ∧ (rawOp 0 q .endLine).lineFields.Pairwise (· ≤ ·))) →
      endLine m q = .ok (rawOp 0 q .endLine) := by
    rintro q (rfl | ⟨rfl, h1, h2⟩)
    · exact exec_raw 0 q .endLine
    · exact endLine_code h1 h2
  have hF : endField m p = .ok (rawOp 0 p .field) := by
    rcases h with rfl | ⟨rfl, r, -⟩
    · exact exec_raw 0 p .field
    · exact endField_code (by have := r.stream; omega) (by have := r.words; omega)
  unfold close at h
  unfold handleEof close
  cases hs : p.state <;> rw [hs] at h <;> dsimp only at h ⊢
  all_goals first
    | rfl
    | (rw [hF]
       dsimp only
       rw [hL]
       rcases h with rfl | ⟨rfl, r, hm⟩
       · exact Or.inl rfl
       · exact Or.inr ⟨rfl, by have := r.lines; exact this, hm⟩)
    | (rw [hL]
       rcases h with rfl | ⟨rfl, r, hm⟩
       · exact Or.inl rfl
       · exact Or.inr ⟨rfl, by have := r.lines; exact this, hm⟩)

theorem close_caps (a b k : Nat) (p : P) : (close (setCaps a b k p)).1 = (close p).1 ∧ (close (setCaps a b k p)).2 = setCaps a b k (close p).2 := by
  unfold close
  rw [show (setCaps a b k p).state = p.state from rfl]
  cases p.state <;> dsimp only <;> try exact ⟨rfl, rfl⟩
  all_goals refine ⟨rfl, ?_⟩
  all_goals rw [rawOp_caps]
  all_goals first | rfl | (rw [rawOp_caps]; rfl)

theorem close_prefix (p : P) : p.lineFields <+: (close p).2.lineFields := by
  unfold close
  cases p.state <;> dsimp only
  all_goals first
    | exact List.prefix_refl _
    | exact (rawOp_sizes 0 p .endLine).2.2.2.2.2.2
    | exact (rawOp_sizes 0 p .field).2.2.2.2.2.2.trans (rawOp_sizes 0 _ .endLine).2.2.2.2.2.2

/-! ### Chunks -/

/-- No chunk is empty, and at none of them bytes are dropped or looked at behind its end. -/
def Clean (g : Cfg) : List (List Nat) → P → Prop
  | [], _ => True
  | ch :: rest, p => ch ≠ [] ∧ skipBom p.fileLines ch = some ch ∧ Clean g rest (ch.foldl (feed g) p)

theorem run_prefix (hcfg : g.skipEmptyLines = true → g.delimWhitespace = true) {p : P} (hf : Fine g p) (xs : List Nat) :
    p.lineFields <+: (xs.foldl (feed g) p).lineFields :=
  (loop_all hcfg (m := raw) xs [] _ p (Nat.le_refl _) hf (Or.inl rfl)).2.2.2

theorem clean_caps (a b k : Nat) : ∀ (cs : List (List Nat)) (p : P), Clean g cs (setCaps a b k p) ↔ Clean g cs p
  | [], _ => Iff.rfl
  | ch :: rest, p => by
    unfold Clean
    rw [run_caps, clean_caps a b k rest]
    exact Iff.rfl

/-- The bytes of a chunk. -/
theorem chunk_loop (hcfg : g.skipEmptyLines = true → g.delimWhitespace = true) {m : Mode} {fuel : Nat} {p : P} {ch data : List Nat}
    (hf : Fine g p) (hd : data.length ≤ ch.length) (hfuel : 2 * ch.length ≤ fuel)
    (hm : m = raw ∨ (m = code ∧ (data.foldl (feed g) p).lineFields.Pairwise (· ≤ ·))) :
    ∃ a b k, loop g m fuel [] data (if m.limits then makeSpace p ch.length else p) = some (.ok (setCaps a b k (data.foldl (feed g) p))) ∧
      Fine g (setCaps a b k (data.foldl (feed g) p)) ∧ (m = raw ∨ (m = code ∧ Room (setCaps a b k (data.foldl (feed g) p)) 0)) := by
  rcases hm with rfl | ⟨rfl, hm⟩
  · obtain ⟨a1, a2, -, -⟩ := loop_all hcfg (m := raw) data [] fuel p (by omega) hf (Or.inl rfl)
    exact ⟨_, _, _, a1, a2, Or.inl rfl⟩
  · obtain ⟨a, b, k, e⟩ := makeSpace_caps p ch.length
    have hr : Room (setCaps a b k p) data.length := by rw [← e]; exact (makeSpace_room p ch.length).mono hd
    have hf' : Fine g (setCaps a b k p) := ⟨hf.crnl, hf.ws⟩
    obtain ⟨a1, a2, a3, -⟩ := loop_all hcfg (m := code) data [] fuel (setCaps a b k p) (by omega) hf'
      (Or.inr ⟨rfl, hr, by rw [run_caps]; exact hm⟩)
    rw [run_caps] at a1 a2 a3
    rw [if_pos (show code.limits = true from rfl), e]
    exact ⟨a, b, k, a1, a2, Or.inr ⟨rfl, a3 hr⟩⟩

/-- How a run ends. -/
def finish (e : Ending) (p : P) : Bool × P :=
  match e with
  | .eof => close p
  | .failed => (false, p)

theorem finish_caps (e : Ending) (a b k : Nat) (p : P) :
    (finish e (setCaps a b k p)).1 = (finish e p).1 ∧ (finish e (setCaps a b k p)).2 = setCaps a b k (finish e p).2 := by
  cases e with
  | eof => exact close_caps a b k p
  | failed => exact ⟨rfl, rfl⟩

theorem finish_prefix (e : Ending) (p : P) : p.lineFields <+: (finish e p).2.lineFields := by
  cases e with
  | eof => exact close_prefix p
  | failed => exact List.prefix_refl _

theorem setCaps_setCaps (a b k a' b' k' : Nat) (p : P) : setCaps a b k (setCaps a' b' k' p) = setCaps a b k p := rfl

theorem chunks_run (hcfg : g.skipEmptyLines = true → g.delimWhitespace = true) {m : Mode} {fuel : Nat} (e : Ending) :
    ∀ (cs : List (List Nat)) (p : P), Clean g cs p → (∀ c ∈ cs, 2 * c.length ≤ fuel) → Fine g p →
      (m = raw ∨ (m = code ∧ Room p 0 ∧ (finish e (cs.flatten.foldl (feed g) p)).2.lineFields.Pairwise (· ≤ ·))) →
      ∃ a b k, tokenize g m fuel cs e p =
        .done (finish e (cs.flatten.foldl (feed g) p)).1 (setCaps a b k (finish e (cs.flatten.foldl (feed g) p)).2)
  | [], p, _, _, _, hm => by
    cases e with
    | eof =>
      refine ⟨(close p).2.streamCap, (close p).2.wordsCap, (close p).2.linesCap, ?_⟩
      show handleEof m p = _
      exact eof_mode hm
    | failed => exact ⟨_, _, _, rfl⟩
  | ch :: rest, p, hc, hfuel, hf, hm => by
    obtain ⟨h1, h2, h3⟩ := hc
    rw [List.flatten_cons, List.foldl_append] at hm ⊢
    have hf1 : Fine g (ch.foldl (feed g) p) := (loop_all hcfg (m := raw) ch [] _ p (Nat.le_refl _) hf (Or.inl rfl)).2.1
    have hm1 : m = raw ∨ (m = code ∧ (ch.foldl (feed g) p).lineFields.Pairwise (· ≤ ·)) := by
      rcases hm with h | ⟨h, -, h'⟩
      · exact Or.inl h
      · exact Or.inr ⟨h, mono_prefix ((run_prefix hcfg hf1 _).trans (finish_prefix e _)) h'⟩
    obtain ⟨a, b, k, l1, l2, l3⟩ := chunk_loop hcfg hf (Nat.le_refl ch.length) (hfuel ch (by simp)) hm1
    have hcl : Clean g rest (setCaps a b k (ch.foldl (feed g) p)) := (clean_caps _ _ _ _ _).2 h3
    have hm2 : m = raw ∨ (m = code ∧ Room (setCaps a b k (ch.foldl (feed g) p)) 0 ∧
        (finish e (rest.flatten.foldl (feed g) (setCaps a b k (ch.foldl (feed g) p)))).2.lineFields.Pairwise (· ≤ ·)) := by
      rcases hm with h | ⟨h, -, h'⟩
      · exact Or.inl h
      · rcases l3 with l3 | ⟨-, l3⟩
        · rw [h] at l3; cases l3
        · exact Or.inr ⟨h, l3, by rw [run_caps, (finish_caps e a b k _).2]; exact h'⟩
    obtain ⟨a', b', k', t⟩ := chunks_run hcfg (m := m) (fuel := fuel) e rest _ hcl (fun c hc => hfuel c (by simp [hc])) l2 hm2
    refine ⟨a', b', k', ?_⟩
    unfold tokenize
    rw [if_neg (by simpa using h1), h2]
    dsimp only
    rw [l1]
    dsimp only
    rw [t, run_caps, (finish_caps e a b k _).1, (finish_caps e a b k _).2, setCaps_setCaps]

/-- The file without the mark at its begin. -/
def dropBom : List Nat → List Nat
  | 0xEF :: 0xBB :: 0xBF :: rest => rest
  | data => data

theorem skipBom_zero {ch : List Nat} (h1 : ch ≠ [0xEF]) (h2 : ch ≠ [0xEF, 0xBB]) : skipBom 0 ch = some (dropBom ch) := by
  unfold skipBom dropBom
  rw [if_neg (by simp)]
  split <;> first | rfl | (exfalso; simp_all; done) | (split <;> simp_all)

theorem dropBom_append {ch rest : List Nat} (h0 : ch ≠ []) (h1 : ch ≠ [0xEF]) (h2 : ch ≠ [0xEF, 0xBB]) : dropBom (ch ++ rest) = dropBom ch ++ rest := by
  match ch, h0, h1, h2 with
  | [], h, _, _ => exact absurd rfl h
  | [a], _, h1, _ =>
    have : a ≠ 0xEF := fun e => h1 (by rw [e])
    unfold dropBom; split <;> simp_all
  | [a, b], _, h1, h2 =>
    unfold dropBom; split <;> simp_all
  | a :: b :: c :: l, _, _, _ =>
    unfold dropBom
    split
    · simp_all
    · rename_i hn
      split
      · rename_i hh
        simp only [List.cons.injEq] at hh
        obtain ⟨rfl, rfl, rfl, rfl⟩ := hh
        exact absurd rfl (hn (l ++ rest))
      · rfl

theorem dropBom_length (l : List Nat) : (dropBom l).length ≤ l.length := by
  unfold dropBom; split <;> simp <;> omega

/-- The run of a file without limits. -/
def runOf (g : Cfg) (e : Ending) (file : List Nat) : Bool × P := finish e ((dropBom file).foldl (feed g) {})

/-- A file in chunks. -/
def CleanFile (g : Cfg) : List (List Nat) → Prop
  | [] => True
  | ch :: rest => ch ≠ [] ∧ ch ≠ [0xEF] ∧ ch ≠ [0xEF, 0xBB] ∧ Clean g rest ((dropBom ch).foldl (feed g) {})

theorem file_run (hcfg : g.skipEmptyLines = true → g.delimWhitespace = true) {m : Mode} {fuel : Nat} (e : Ending) (cs : List (List Nat))
    (hc : CleanFile g cs) (hfuel : ∀ c ∈ cs, 2 * c.length ≤ fuel)
    (hm : m = raw ∨ (m = code ∧ (runOf g e cs.flatten).2.lineFields.Pairwise (· ≤ ·))) :
    ∃ a b k, tokenize g m fuel cs e {} = .done (runOf g e cs.flatten).1 (setCaps a b k (runOf g e cs.flatten).2) := by
  have hf : Fine g {} := ⟨by simp, by simp⟩
  have hr : Room {} 0 := ⟨by decide, by decide, by decide⟩
  unfold runOf at hm ⊢
  match cs, hc with
  | [], _ =>
    apply chunks_run hcfg e [] {} trivial (by simp) hf
    rcases hm with h | ⟨h, h'⟩
    · exact Or.inl h
    · exact Or.inr ⟨h, hr, h'⟩
  | ch :: rest, ⟨h0, h1, h2, hcl⟩ =>
    rw [List.flatten_cons, dropBom_append h0 h1 h2, List.foldl_append] at hm ⊢
    have hf1 : Fine g ((dropBom ch).foldl (feed g) {}) :=
      (loop_all hcfg (m := raw) (dropBom ch) [] _ {} (Nat.le_refl _) hf (Or.inl rfl)).2.1
    have hm1 : m = raw ∨ (m = code ∧ ((dropBom ch).foldl (feed g) {}).lineFields.Pairwise (· ≤ ·)) := by
      rcases hm with h | ⟨h, h'⟩
      · exact Or.inl h
      · exact Or.inr ⟨h, mono_prefix ((run_prefix hcfg hf1 _).trans (finish_prefix e _)) h'⟩
    obtain ⟨a, b, k, l1, l2, l3⟩ := chunk_loop hcfg hf (dropBom_length ch) (hfuel ch (by simp)) hm1
    have hm2 : m = raw ∨ (m = code ∧ Room (setCaps a b k ((dropBom ch).foldl (feed g) {})) 0 ∧
        (finish e (rest.flatten.foldl (feed g) (setCaps a b k ((dropBom ch).foldl (feed g) {})))).2.lineFields.Pairwise (· ≤ ·)) := by
      rcases hm with h | ⟨h, h'⟩
      · exact Or.inl h
      · rcases l3 with l3 | ⟨-, l3⟩
        · rw [h] at l3; cases l3
        · exact Or.inr ⟨h, l3, by rw [run_caps, (finish_caps e a b k _).2]; exact h'⟩
    obtain ⟨a', b', k', t⟩ := chunks_run hcfg (m := m) (fuel := fuel) e rest _ ((clean_caps a b k _ _).2 hcl)
      (fun c hc => hfuel c (by simp [hc])) l2 hm2
    refine ⟨a', b', k', ?_⟩
    unfold tokenize
    rw [if_neg (by simpa using h0), skipBom_zero h1 h2]
    dsimp only
    rw [l1]
    dsimp only
    rw [t, run_caps, (finish_caps e a b k _).1, (finish_caps e a b k _).2, setCaps_setCaps]

end Verif.Tokenizer
