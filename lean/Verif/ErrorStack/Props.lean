/- Property C16: the error trace. -/
import Verif.ErrorStack.Model
namespace Verif.ErrorStack

/-! #### Specification, independent of the five vectors -/

/-- What was reported since the trace was last reset.  A reset is a `clear` or a
non-stacking report (which starts a new trace with itself). -/
def reported : List Op → List Entry → List Entry
  | [], acc => acc
  | .clear :: h, _ => reported h []
  | .record x false :: h, _ => reported h [x]
  | .record x true :: h, acc => reported h (acc ++ [x])

/-- The entry telling the reader that the trace overflowed. -/
def overflowEntry : Entry :=
  { status := 1, mesg := "Too many errors were registered, storing the first 10",
    details := "", telem := "", severity := .error }

/-- At most ten entries: everything if nine or fewer, else the first nine and a marker. -/
def bounded (l : List Entry) : List Entry :=
  if l.length ≤ 9 then l else l.take 9 ++ [overflowEntry]

/-- The object stores exactly the list `l`. -/
def Stores (e : ErrT) (l : List Entry) : Prop :=
  e.status = l.map (·.status) ∧ e.mesg = l.map (·.mesg) ∧ e.details = l.map (·.details) ∧
  e.telem = l.map (·.telem) ∧ e.severity = l.map (·.severity)

theorem stores_rec {e : ErrT} {l : List Entry} (h : Stores e (bounded l)) (x : Entry) :
    Stores (e.rec_ x true).2 (bounded (l ++ [x])) := by
  obtain ⟨h1, h2, h3, h4, h5⟩ := h
  have hlen : e.status.length = (bounded l).length := by rw [h1]; simp
  unfold ErrT.rec_
  simp only [Bool.not_true, Bool.false_eq_true, if_false, hlen]
  by_cases ha : l.length ≤ 8
  · have hb : bounded l = l := by simp [bounded, show l.length ≤ 9 by omega]
    have hb' : bounded (l ++ [x]) = l ++ [x] := by simp [bounded, ha]
    rw [hb, hb']
    rw [hb] at h1 h2 h3 h4 h5
    rw [if_pos (by simp [stackSize]; omega)]
    simp [Stores, h1, h2, h3, h4, h5]
  · by_cases hc : l.length = 9
    · have hb : bounded l = l := by simp [bounded, hc]
      have hb' : bounded (l ++ [x]) = l ++ [overflowEntry] := by
        simp [bounded, hc]
      rw [hb, hb']
      rw [hb] at h1 h2 h3 h4 h5
      rw [if_neg (by simp [stackSize, hc]), if_pos (by simp [stackSize, hc])]
      simp [Stores, h1, h2, h3, h4, h5, overflowEntry, statusInternalError, fullMesg]
    · have hgt : 9 < l.length := by omega
      have hb : (bounded l).length = 10 := by
        simp only [bounded, if_neg (show ¬ l.length ≤ 9 by omega)]
        simp; omega
      have hb' : bounded (l ++ [x]) = bounded l := by
        simp [bounded, show ¬ l.length ≤ 9 by omega, show ¬ l.length ≤ 8 by omega,
          List.take_append_of_le_length (show 9 ≤ l.length by omega)]
      rw [hb', if_neg (by simp [stackSize, hb]), if_neg (by simp [stackSize, hb])]
      exact ⟨h1, h2, h3, h4, h5⟩

theorem stores_run (h : List Op) : ∀ (e : ErrT) (l : List Entry), Stores e (bounded l) →
    Stores (h.foldl step e) (bounded (reported h l)) := by
  induction h with
  | nil => exact fun e l hs => hs
  | cons op h ih =>
    intro e l hs
    cases op with
    | clear => exact ih _ [] (by simp [step, ErrT.clear, Stores, bounded])
    | record x stack =>
      cases stack with
      | true => exact ih _ (l ++ [x]) (stores_rec hs x)
      | false =>
        refine ih _ [x] ?_
        simp [step, ErrT.rec_, Stores, bounded, stackSize]

/-! #### C16 -/

/-- C16.  After any history, the trace is exactly the list of reports since the last reset,
cut to nine plus an overflow marker when there were ten or more. -/
theorem C16_trace_content (history : List Op) :
    Stores (run history) (bounded (reported history [])) :=
  stores_run history ErrT.new [] (by simp [ErrT.new, Stores, bounded])

/-- C16.  The trace never holds more than ten entries. -/
theorem C16_trace_bounded (history : List Op) :
    (run history).status.length ≤ 10 ∧ (run history).mesg.length ≤ 10 ∧
    (run history).details.length ≤ 10 ∧ (run history).telem.length ≤ 10 ∧
    (run history).severity.length ≤ 10 := by
  have hb : ∀ l, (bounded l).length ≤ 10 := by
    intro l; unfold bounded; split
    · omega
    · simp; omega
  obtain ⟨h1, h2, h3, h4, h5⟩ := C16_trace_content history
  rw [h1, h2, h3, h4, h5]
  simp [hb]

/-- C16.  The status, severity, message, details and telemetry queries report the first
entry recorded since the last reset, or success when there is none. -/
theorem C16_first_error_reported (history : List Op) :
    (reported history [] = [] → (run history).getStatus = 0 ∧ (run history).getMesg = "" ∧
      (run history).getSeverity = .notSet) ∧
    (∀ x rest, reported history [] = x :: rest →
      (run history).getStatus = x.status ∧ (run history).getMesg = x.mesg ∧
      (run history).getSeverity = x.severity ∧ (run history).getDetails = x.details ∧
      (run history).getTelem = x.telem) := by
  obtain ⟨h1, h2, h3, h4, h5⟩ := C16_trace_content history
  constructor
  · intro h
    rw [h] at h1 h2 h5
    simp [ErrT.getStatus, ErrT.getMesg, ErrT.getSeverity, h1, h2, h5, bounded, statusSuccess]
  · intro x rest h
    rw [h] at h1 h2 h3 h4 h5
    have hb : ∃ r, bounded (x :: rest) = x :: r := by
      unfold bounded; split
      · exact ⟨_, rfl⟩
      · exact ⟨_, by simp [List.take_succ_cons]; rfl⟩
    obtain ⟨r, hr⟩ := hb
    rw [hr] at h1 h2 h3 h4 h5
    simp [ErrT.getStatus, ErrT.getMesg, ErrT.getSeverity, ErrT.getDetails, ErrT.getTelem, h1, h2, h3, h4, h5]

/-- C16.  When ten or more reports were stacked, the tenth slot is the overflow marker. -/
theorem C16_overflow_marked (history : List Op) (h : 10 ≤ (reported history []).length) :
    (run history).mesg[9]? = some "Too many errors were registered, storing the first 10" ∧
    (run history).status[9]? = some 1 ∧ (run history).severity[9]? = some .error := by
  obtain ⟨h1, h2, _, _, h5⟩ := C16_trace_content history
  have e : bounded (reported history []) = (reported history []).take 9 ++ [overflowEntry] := by
    simp [bounded, show ¬ (reported history []).length ≤ 9 by omega]
  rw [h1, h2, h5, e]
  simp [overflowEntry,
    Nat.min_eq_left (show 9 ≤ (reported history []).length by omega)]

/-- C16.  Printing visits exactly the stored entries, never outside the vectors. -/
theorem C16_print_safe (history : List Op) :
    (run history).printLevels = some (bounded (reported history [])) := by
  obtain ⟨h1, h2, h3, h4, h5⟩ := C16_trace_content history
  generalize bounded (reported history []) = l at *
  unfold ErrT.printLevels
  rw [h1, h2, h3, h4, h5]
  cases hl : l with
  | nil => rfl
  | cons a t =>
    rw [← hl]
    rw [if_neg (by rw [hl]; simp)]
    have key : ∀ n, n ≤ l.length → (List.range n).mapM (fun t => do
        let sv ← (l.map (·.severity))[t]?
        let st ← (l.map (·.status))[t]?
        let tl ← (l.map (·.telem))[t]?
        let ms ← (l.map (·.mesg))[t]?
        let dt ← (l.map (·.details))[t]?
        pure ({ status := st, mesg := ms, details := dt, telem := tl, severity := sv } : Entry))
        = some (l.take n) := by
      intro n
      induction n with
      | zero => intro _; rfl
      | succ n ih =>
        intro hn
        rw [List.range_succ, List.mapM_append, ih (by omega)]
        obtain ⟨a, ha⟩ : ∃ a, l[n]? = some a := ⟨_, List.getElem?_eq_getElem (by omega)⟩
        simp [ha, List.take_add_one]
    have := key l.length (Nat.le_refl _)
    rw [List.take_length] at this
    rw [List.length_map]
    exact this

/-- C16 finding: asking for the message as a C string while the trace is empty is undefined
behaviour (`mesg.front()` of an empty vector). -/
theorem C16_mesg_char_undefined_when_empty (history : List Op) :
    (run history).getMesgChar = none ↔ reported history [] = [] := by
  obtain ⟨_, h2, _⟩ := C16_trace_content history
  unfold ErrT.getMesgChar
  rw [h2]
  cases hr : reported history [] with
  | nil => simp [bounded]
  | cons x r =>
    have hb : ∃ r', bounded (x :: r) = x :: r' := by
      unfold bounded; split
      · exact ⟨_, rfl⟩
      · exact ⟨_, by simp [List.take_succ_cons]; rfl⟩
    obtain ⟨r', hr'⟩ := hb
    rw [hr']; simp

def exEntry (n : Nat) : Entry := ⟨n + 2, "m", "d", "t", .warning⟩

-- twelve stacked reports after a reset
example : (run (.record (exEntry 0) false :: (List.range 11).map (fun i => Op.record (exEntry (i + 1)) true))).status
    = [2, 3, 4, 5, 6, 7, 8, 9, 10, 1] := by decide
example : 10 ≤ (reported ((List.range 12).map (fun i => Op.record (exEntry i) true)) []).length := by decide
example : (run [.record (exEntry 3) false, .record (exEntry 5) true]).getStatus = 5 := by decide

end Verif.ErrorStack
