/-
The loops of `concatenate_rows` that attach a block to the chains, and remove it again.
-/
import Verif.DataStore.Cols

namespace Verif.DataStore
variable {V : Type}

/-- The heap `h` is `h0` with `new` as the successor of the objects of `T` and `par` as the left parent of `new`. -/
structure Linked (h0 : List (Node V)) (new : Nat) (T : List Nat) (par : Option Nat) (h : List (Node V)) : Prop where
  len : h.length = h0.length
  get : ∀ id : Nat, h[id]? = (h0[id]?).map fun nd =>
    { nd with next := if id ∈ T then some new else nd.next, leftParent := if id = new then par else nd.leftParent }

theorem Linked.refl {h0 : List (Node V)} {new : Nat} {nd : Node V} (hn : h0[new]? = some nd) (hl : nd.leftParent = none) :
    Linked h0 new [] none h0 := by
  refine ⟨rfl, fun id => ?_⟩
  by_cases c : id = new
  · subst c; rw [hn]; simp [← hl]
  · cases h0[id]? <;> simp [c]

theorem Linked.blk {h0 h : List (Node V)} {new : Nat} {T : List Nat} {par : Option Nat} (hl : Linked h0 new T par h) (id : Nat) :
    DataStore.blk h id = DataStore.blk h0 id ∧ off h id = off h0 id := by
  unfold DataStore.blk off
  rw [hl.get id]
  cases h0[id]? <;> simp

theorem Linked.nx {h0 h : List (Node V)} {new : Nat} {T : List Nat} {par : Option Nat} (hl : Linked h0 new T par h) (id : Nat) :
    DataStore.nx h id = (DataStore.nx h0 id).map fun q => if id ∈ T then some new else q := by
  unfold DataStore.nx
  rw [hl.get id]
  cases h0[id]? <;> simp

theorem Linked.nx_out {h0 h : List (Node V)} {new : Nat} {T : List Nat} {par : Option Nat} (hl : Linked h0 new T par h) {id : Nat}
    (hid : id ∉ T) : DataStore.nx h id = DataStore.nx h0 id := by
  rw [hl.nx id]
  simp [hid]

theorem Linked.lp {h0 h : List (Node V)} {new : Nat} {T : List Nat} {par : Option Nat} (hl : Linked h0 new T par h) (id : Nat) :
    DataStore.lp h id = (DataStore.lp h0 id).map fun q => if id = new then par else q := by
  unfold DataStore.lp
  rw [hl.get id]
  cases h0[id]? <;> simp

theorem Linked.setNext {h0 h : List (Node V)} {new : Nat} {T : List Nat} {par : Option Nat} (hl : Linked h0 new T par h) (t : Nat) :
    Linked h0 new (T ++ [t]) par (setNext h t (some new)) := by
  refine ⟨by rw [← hl.len]; simp [DataStore.setNext], fun id => ?_⟩
  unfold DataStore.setNext
  rw [List.getElem?_modify, hl.get id]
  cases h0[id]? with
  | none => simp
  | some nd =>
    by_cases c : t = id
    · subst c; simp
    · have : ¬ id = t := fun w => c w.symm
      simp [c, this]

theorem Linked.setParent {h0 h : List (Node V)} {new : Nat} {T : List Nat} {par : Option Nat} (hl : Linked h0 new T par h) (q : Option Nat) :
    Linked h0 new T q (setLeftParent h new q) := by
  refine ⟨by rw [← hl.len]; simp [DataStore.setLeftParent], fun id => ?_⟩
  unfold DataStore.setLeftParent
  rw [List.getElem?_modify, hl.get id]
  cases h0[id]? with
  | none => simp
  | some nd =>
    by_cases c : new = id
    · subst c; simp
    · have : ¬ id = new := fun w => c w.symm
      simp [c, this]

theorem Linked.clear {h0 h : List (Node V)} {new t : Nat} {T : List Nat} {par : Option Nat} (hl : Linked h0 new (t :: T) par h)
    (ht : DataStore.nx h0 t = some none) (hT : t ∉ T) : Linked h0 new T par (DataStore.setNext h t none) := by
  refine ⟨by rw [← hl.len]; simp [DataStore.setNext], fun id => ?_⟩
  unfold DataStore.setNext
  rw [List.getElem?_modify, hl.get id]
  unfold DataStore.nx at ht
  cases hh : h0[id]? with
  | none => simp
  | some nd =>
    by_cases c : t = id
    · subst c
      rw [hh] at ht
      have ht' : nd.next = none := by simpa using ht
      simp [hT, ht']
    · have : ¬ id = t := fun w => c w.symm
      simp [c, this]

def Iv.tail (x : Iv) : Nat := x.path.getLast?.getD 0

theorem Iv.tail_eq {x : Iv} (h : x.path ≠ []) : x.path = x.path.dropLast ++ [x.tail] := by
  unfold Iv.tail
  rw [List.getLast?_eq_some_getLast h]
  exact (List.dropLast_append_getLast h).symm

theorem Iv.tail_mem {x : Iv} (h : x.path ≠ []) : x.tail ∈ x.path := by
  rw [Iv.tail_eq h]; simp

/-- Conditions on the ranges that a block of rows meets. -/
structure Ready (h0 : List (Node V)) (g : Mat V) (new : Nat) (T : List Nat) (stop : Int) (R : List Iv) : Prop where
  ok : ∀ x ∈ R, x.lo < stop → IvOk h0 g x
  fresh : ∀ x ∈ R, x.lo < stop → new ∉ x.path
  apart : ∀ x ∈ R, x.lo < stop → ∀ t ∈ T, t ∉ x.path
  disj : R.Pairwise fun x y => x.lo < stop → y.lo < stop → ∀ id, id ∈ x.path → id ∉ y.path

theorem attach_spec {h0 : List (Node V)} {g : Mat V} {new : Nat} {nd : Node V} (hnew : h0[new]? = some nd)
    {ty : Ty} {idxStart nr n : Int} {Lall : List Iv} (htiles : Tiles 0 Lall n) (hstop : idxStart + nr ≤ n) :
    ∀ (R A : List Iv) (T : List Nat) (fuel : Nat) (ub : Int) (h : List (Node V)), Lall = A ++ R → Tiles (ub + 1) R n →
    Ready h0 g new T (idxStart + nr) R → new ∉ T → Linked h0 new T T.head? h → (idxStart + nr - (ub + 1)).toNat < fuel →
    ub + 1 ≤ idxStart + nr →
    ∃ C D, R = C ++ D ∧ (∀ x ∈ C, x.lo < idxStart + nr ∧ x.hi < idxStart + nr ∧ g.ty x.lo = ty) ∧
      ∃ h', Linked h0 new (T ++ C.map Iv.tail) (T ++ C.map Iv.tail).head? h' ∧
        ((Tiles (ub + 1) C (idxStart + nr) ∧ attach (Lall.map Iv.entry) ty idxStart nr new fuel ub h = some (false, h')) ∨
         ((∃ x D', D = x :: D' ∧ x.lo < idxStart + nr ∧ ¬ (x.hi < idxStart + nr ∧ g.ty x.lo = ty)) ∧
          attach (Lall.map Iv.entry) ty idxStart nr new fuel ub h = some (true, h'))) := by
  intro R
  induction R with
  | nil =>
    intro A T fuel ub h hL hR hready hT hl hf hub
    simp only [Tiles] at hR
    refine ⟨[], [], rfl, by simp, h, by simpa using hl, Or.inl ⟨by simp only [Tiles]; omega, ?_⟩⟩
    cases fuel with
    | zero => omega
    | succ fuel =>
      unfold attach
      rw [if_neg (by omega)]
  | cons x R ih =>
    intro A T fuel ub h hL hR hready hT hl hf hub
    obtain ⟨hx1, hx2, hx3⟩ := hR
    cases fuel with
    | zero => omega
    | succ fuel =>
      unfold attach
      by_cases c : ub < idxStart + nr - 1
      · rw [if_pos c]
        have hxs : x.lo < idxStart + nr := by omega
        have hok := hready.ok x (by simp) hxs
        have hxL : x ∈ Lall := by rw [hL]; simp
        rw [cmap_find htiles hxL (by omega) (by omega)]
        dsimp only
        obtain ⟨ndx, g1, -, -, -, g2⟩ := hok.nodes _ hok.head.2
        rw [hl.get, g1]
        dsimp only [Option.map_some]
        have hty : (ty ≠ ndx.b.ty ∨ x.entry.hi > idxStart + nr - 1) ↔ ¬ (x.hi < idxStart + nr ∧ g.ty x.lo = ty) := by
          rw [g2]
          show ty ≠ _ ∨ x.hi > _ ↔ _
          constructor
          · rintro (w | w)
            · exact fun v => w v.2.symm
            · intro v; omega
          · intro w
            by_cases e : ty = g.ty x.lo
            · refine Or.inr ?_
              by_contra v
              exact w ⟨by omega, e.symm⟩
            · exact Or.inl e
        by_cases c2 : x.hi < idxStart + nr ∧ g.ty x.lo = ty
        · rw [if_neg (fun w => hty.mp w c2)]
          have hp : Path h x.path.head? x.path := path_frame hok.path fun i hi =>
            hl.nx_out fun w => hready.apart x (by simp) hxs i w hi
          rw [hok.head.1] at hp
          obtain ⟨t, h1, h2⟩ := lastNode_path (fuel := h.length + 1) hp (by have := path_length hp; omega)
          have htail : x.tail = t := by unfold Iv.tail; rw [h1]; rfl
          rw [h2]
          dsimp only
          have hl1 := hl.setNext t
          rw [hl1.get, hnew]
          dsimp only [Option.map_some]
          have hl2 : Linked h0 new (T ++ [t]) (T ++ [t]).head? (if (if new = new then T.head? else nd.leftParent).isNone then
              setLeftParent (DataStore.setNext h t (some new)) new (some t) else DataStore.setNext h t (some new)) := by
            rw [if_pos rfl]
            cases hT0 : T with
            | nil =>
              have := hl1.setParent (some t)
              rw [hT0] at this
              simpa using this
            | cons a T' => rw [hT0] at hl1; simpa using hl1
          have hready' : Ready h0 g new (T ++ [t]) (idxStart + nr) R := by
            refine ⟨fun y hy => hready.ok y (by simp [hy]), fun y hy => hready.fresh y (by simp [hy]), ?_, (List.pairwise_cons.mp hready.disj).2⟩
            intro y hy hys s hs
            rcases List.mem_append.mp hs with hs | hs
            · exact hready.apart y (by simp [hy]) hys s hs
            · rw [List.mem_singleton] at hs
              subst hs
              exact (List.pairwise_cons.mp hready.disj).1 y hy hxs hys s (by rw [← htail]; exact Iv.tail_mem hok.ne)
          have htp : t ∈ x.path := by rw [← htail]; exact Iv.tail_mem hok.ne
          obtain ⟨C, D, e1, e2, h', e3, e4⟩ := ih (A ++ [x]) (T ++ [t]) fuel x.hi _ (by rw [hL]; simp) hx3 hready'
            (by
              intro w
              rcases List.mem_append.mp w with w | w
              · exact hT w
              · rw [List.mem_singleton] at w
                rw [← w] at htp
                exact hready.fresh x (by simp) hxs htp) hl2 (by omega) (by omega)
          refine ⟨x :: C, D, by rw [e1]; rfl, ?_, h', ?_, ?_⟩
          · intro y hy
            rcases List.mem_cons.mp hy with rfl | hy
            · exact ⟨hxs, c2⟩
            · exact e2 y hy
          · have : T ++ (x :: C).map Iv.tail = T ++ [t] ++ C.map Iv.tail := by simp [htail]
            rw [this]
            exact e3
          · rcases e4 with ⟨e4, e5⟩ | ⟨e4, e5⟩
            · exact Or.inl ⟨⟨hx1, hx2, e4⟩, e5⟩
            · exact Or.inr ⟨e4, e5⟩
        · rw [if_pos (hty.mpr c2)]
          exact ⟨[], x :: R, rfl, by simp, h, by simpa using hl, Or.inr ⟨⟨x, R, rfl, hxs, c2⟩, rfl⟩⟩
      · rw [if_neg c]
        exact ⟨[], x :: R, rfl, by simp, h, by simpa using hl, Or.inl ⟨by simp only [Tiles]; omega, rfl⟩⟩

theorem unlink_none {h : List (Node V)} {new : Nat} {p : List Nat} : ∀ {fuel i : Nat}, Path h (some i) p → new ∉ p → p.length ≤ fuel →
    unlink new fuel i h = some h := by
  induction p with
  | nil => intro fuel i hp; cases hp
  | cons x p ih =>
    intro fuel i hp hn hf
    cases hp with
    | @cons _ q _ h1 h2 =>
      cases fuel with
      | zero => simp at hf
      | succ fuel =>
        unfold nx at h1
        cases hh : h[x]? with
        | none => rw [hh] at h1; cases h1
        | some nd =>
          rw [hh] at h1
          have hq : nd.next = q := by simpa using h1
          unfold unlink
          rw [hh]
          dsimp only
          rw [hq]
          cases q with
          | none => rfl
          | some j =>
            dsimp only
            cases h2 with
            | cons h3 h4 =>
              rw [if_neg (by rintro rfl; exact hn (by simp))]
              exact ih (.cons h3 h4) (fun w => hn (by simp [w])) (by simpa using hf)

theorem unlink_last {h : List (Node V)} {new t : Nat} {p : List Nat} : ∀ {fuel i : Nat}, Path h (some i) (p ++ [t, new]) →
    new ∉ p ++ [t] → p.length + 1 ≤ fuel → unlink new fuel i h = some (setNext h t none) := by
  induction p with
  | nil =>
    intro fuel i hp hn hf
    cases fuel with
    | zero => simp at hf
    | succ fuel =>
      cases hp with
      | @cons _ q _ h1 h2 =>
        cases h2 with
        | cons h3 h4 =>
          unfold nx at h1
          cases hh : h[t]? with
          | none => rw [hh] at h1; cases h1
          | some nd =>
            rw [hh] at h1
            have hq : nd.next = some new := by simpa using h1
            unfold unlink
            rw [hh]
            dsimp only
            rw [hq]
            dsimp only
            rw [if_pos rfl]
  | cons x p ih =>
    intro fuel i hp hn hf
    cases fuel with
    | zero => simp at hf
    | succ fuel =>
      cases hp with
      | @cons _ q _ h1 h2 =>
        unfold nx at h1
        cases hh : h[x]? with
        | none => rw [hh] at h1; cases h1
        | some nd =>
          rw [hh] at h1
          have hq : nd.next = q := by simpa using h1
          unfold unlink
          rw [hh]
          dsimp only
          rw [hq]
          cases q with
          | none => cases hp' : p ++ [t, new] with
            | nil => simp at hp'
            | cons a b => have : Path h none (a :: b) := by rw [← hp']; exact h2
                          cases this
          | some j =>
            dsimp only
            have hj : j ∈ p ++ [t] := by
              cases p with
              | nil => cases h2; simp
              | cons a p => cases h2; simp
            rw [if_neg (by rintro rfl; exact hn (by simp at hj ⊢; tauto))]
            exact ih h2 (fun w => hn (by simp at w ⊢; tauto)) (by simp at hf; omega)

theorem detach_spec {h0 : List (Node V)} {g : Mat V} {new : Nat} {nd : Node V} (hnew : h0[new]? = some nd) (hnn : nd.next = none)
    {idxStart nr n : Int} {Lall : List Iv} (htiles : Tiles 0 Lall n) (hstop : idxStart + nr ≤ n) {par : Option Nat} :
    ∀ (R A C D : List Iv) (fuel : Nat) (ub : Int) (h : List (Node V)), Lall = A ++ R → R = C ++ D → (∀ x ∈ C, x.lo < idxStart + nr) →
    Tiles (ub + 1) R n →
    Ready h0 g new [] (idxStart + nr) R → Linked h0 new (C.map Iv.tail) par h → (idxStart + nr - (ub + 1)).toNat < fuel →
    ∃ h', detach (Lall.map Iv.entry) idxStart nr new fuel ub h = some h' ∧ Linked h0 new [] par h' := by
  intro R
  induction R with
  | nil =>
    intro A C D fuel ub h hL hCD hC hR hready hl hf
    simp only [Tiles] at hR
    have hC0 : C = [] := by cases C with | nil => rfl | cons a b => simp at hCD
    subst hC0
    refine ⟨h, ?_, hl⟩
    cases fuel with
    | zero => omega
    | succ fuel =>
      unfold detach
      rw [if_neg (by omega)]
  | cons x R ih =>
    intro A C D fuel ub h hL hCD hC hR hready hl hf
    obtain ⟨hx1, hx2, hx3⟩ := hR
    cases fuel with
    | zero => omega
    | succ fuel =>
      unfold detach
      by_cases c : ub < idxStart + nr - 1
      · rw [if_pos c]
        have hxs : x.lo < idxStart + nr := by omega
        have hok := hready.ok x (by simp) hxs
        have hxL : x ∈ Lall := by rw [hL]; simp
        rw [cmap_find htiles hxL (by omega) (by omega)]
        dsimp only
        have hdisj := List.pairwise_cons.mp hready.disj
        have hready' : Ready h0 g new [] (idxStart + nr) R :=
          ⟨fun y hy => hready.ok y (by simp [hy]), fun y hy => hready.fresh y (by simp [hy]), by simp, hdisj.2⟩
        have hfresh := hready.fresh x (by simp) hxs
        cases C with
        | nil =>
          have hp : Path h x.path.head? x.path := path_frame hok.path fun i hi => hl.nx_out (by simp)
          rw [hok.head.1] at hp
          rw [unlink_none hp hfresh (by have := path_length hp; omega)]
          exact ih (A ++ [x]) [] R fuel x.hi h (by rw [hL]; simp) rfl (by simp) hx3 hready' hl (by show (idxStart + nr - (x.hi + 1)).toNat < fuel; omega)
        | cons y C =>
          simp only [List.cons_append, List.cons.injEq] at hCD
          obtain ⟨rfl, hCD⟩ := hCD
          have hxin : x.tail ∈ x.path := Iv.tail_mem hok.ne
          have hCs : ∀ y ∈ C, y.lo < idxStart + nr := fun y hy => hC y (by simp [hy])
          have hout : ∀ i ∈ x.path, i ∉ C.map Iv.tail := by
            intro i hi w
            obtain ⟨y, hy, rfl⟩ := List.mem_map.mp w
            have hyR : y ∈ R := by rw [hCD]; simp [hy]
            exact hdisj.1 y hyR hxs (hCs y hy) _ hi (Iv.tail_mem (hready'.ok y hyR (hCs y hy)).ne)
          have hnxt : nx h0 x.tail = some none := by
            have := hok.path
            rw [Iv.tail_eq hok.ne] at this
            exact path_last this
          have hnewT : new ∉ (x :: C).map Iv.tail := by
            intro w
            obtain ⟨y, hy, hyt⟩ := List.mem_map.mp w
            rcases List.mem_cons.mp hy with rfl | hy
            · rw [hyt] at hxin; exact hfresh hxin
            · have hyR : y ∈ R := by rw [hCD]; simp [hy]
              have := Iv.tail_mem (hready'.ok y hyR (hCs y hy)).ne
              rw [hyt] at this
              exact hready'.fresh y hyR (hCs y hy) this
          have hp0 := hok.path
          have hdl := Iv.tail_eq hok.ne
          rw [hdl] at hp0
          have hp : Path h (x.path.dropLast ++ [x.tail]).head? (x.path.dropLast ++ [x.tail] ++ [new]) := by
            refine path_snoc hp0 ?_ ?_ ?_
            · intro i hi
              refine hl.nx_out ?_
              intro w
              rcases List.mem_cons.mp (by simpa using w : i ∈ x.tail :: C.map Iv.tail) with w | w
              · have hnd := path_nodup hp0
                rw [List.nodup_append] at hnd
                exact hnd.2.2 i hi x.tail (by simp) w
              · exact hout i (by rw [hdl]; simp [hi]) w
            · rw [hl.nx, hnxt]; simp
            · rw [hl.nx_out hnewT]; simp [nx, hnew, hnn]
          rw [← hdl, hok.head.1] at hp
          have hlen := path_length hp
          have hp' : Path h (some x.entry.val) (x.path.dropLast ++ [x.tail, new]) := by
            rw [show x.path.dropLast ++ [x.tail, new] = x.path.dropLast ++ [x.tail] ++ [new] by simp, ← hdl]
            exact hp
          rw [unlink_last hp' (by rw [← hdl]; exact hfresh) (by
            have : x.path.length = x.path.dropLast.length + 1 := by
              have := congrArg List.length hdl; simpa using this
            rw [List.length_append] at hlen
            simp at hlen
            omega)]
          dsimp only
          have hl' := Linked.clear (t := x.tail) (T := C.map Iv.tail) hl hnxt (hout _ hxin)
          exact ih (A ++ [x]) C D fuel x.hi _ (by rw [hL]; simp) hCD hCs hx3 hready' hl'
            (by show (idxStart + nr - (x.hi + 1)).toNat < fuel; omega)
      · rw [if_neg c]
        have hC0 : C = [] := by
          cases C with
          | nil => rfl
          | cons y C =>
            simp only [List.cons_append, List.cons.injEq] at hCD
            have := hC y (by simp)
            rw [← hCD.1] at this
            omega
        subst hC0
        exact ⟨h, rfl, hl⟩

end Verif.DataStore
