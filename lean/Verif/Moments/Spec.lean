import Mathlib.Algebra.BigOperators.Ring.Finset
import Verif.Moments.Model

/-
What the sums and statistics are meant to be, in terms of the matrix the buffer holds.
-/
namespace Verif.Moments

open Finset

variable {A W : Type}

/-- Where entry (i, j) of a matrix is stored. -/
def at' (order : Order) (ldx i j : Nat) : Nat :=
  match order with
  | .col => j * ldx + i
  | .row => i * ldx + j

/-- The buffer `x` holds the `m × n` matrix `X`.  Nothing is said of the padding, and the
buffer may end at the last entry. -/
def Holds (order : Order) (m n ldx : Nat) (x : List A) (X : Nat → Nat → A) : Prop :=
  ∀ i < m, ∀ j < n, x[at' order ldx i j]? = some (X i j)

/-- The leading dimension is at least the length of a stored line. -/
def LdOk (order : Order) (m n ldx : Nat) : Prop :=
  match order with
  | .col => m ≤ ldx
  | .row => n ≤ ldx

/-- The number of results. -/
def outLen (axis : Axis) (m n : Nat) : Nat :=
  match axis with
  | .all => 1
  | .col => n
  | .row => m

/-- The number of entries that go into each result. -/
def obs (axis : Axis) (m n : Nat) : Nat :=
  match axis with
  | .all => m * n
  | .col => m
  | .row => n

/-- The result that entry (i, j) goes into. -/
def line (axis : Axis) (i j : Nat) : Nat :=
  match axis with
  | .all => 0
  | .col => j
  | .row => i

/-- The sum of `g` over the entries that go into result `k`. -/
def total [AddCommMonoid W] (axis : Axis) (m n : Nat) (X : Nat → Nat → A) (g : A → W)
    (k : Nat) : W :=
  match axis with
  | .all => ∑ i ∈ range m, ∑ j ∈ range n, g (X i j)
  | .col => ∑ i ∈ range m, g (X i k)
  | .row => ∑ j ∈ range n, g (X k j)

/-- `g k a` is the summand of entry `a` in result `k`: the function applied to the entry,
or to the entry and the `k`-th parameter. -/
def Serves (S : Kern A W) (p : Option (List A)) (L : Nat) (g : Nat → A → W) : Prop :=
  match S, p with
  | .one f, none => ∀ k < L, g k = f
  | .two f, some l => ∀ k < L, ∃ q, l[k]? = some q ∧ ∀ a, g k a = f a q
  | _, _ => False

/-- A run-time environment that OpenMP allows: there is at least one thread, and every
iteration of every loop is executed once, in whatever order. -/
structure Env.Ok (e : Env) (thr outer inner : Nat) : Prop where
  threads : 0 < e.maxThreads
  team : 0 < e.team
  sums : e.sumOrder.Perm (List.range (e.fullTeam outer inner))
  lines : e.lines.Perm (List.range outer)
  blocks : ∀ pl, plan thr e.maxThreads outer inner = .ok pl → e.blocks.Perm
    ((List.range pl.nOuter).flatMap fun i => (List.range pl.nInner).map fun j => (i, j))
  level : ∀ pl, plan thr e.maxThreads outer inner = .ok pl → ∀ s, 0 < s →
    (e.level s).Perm ((List.range pl.nOuter).filter fun d => d % (2 * s) = 0)

/-- The same, for a matrix. -/
def Env.OkFor (e : Env) (thr : Nat) (order : Order) (m n : Nat) : Prop :=
  match order with
  | .col => e.Ok thr n m
  | .row => e.Ok thr m n

/-- The environment in which every loop runs in order, with `t` threads. -/
def Env.plain (thr t outer inner : Nat) : Env where
  maxThreads := t
  team := t
  sumOrder := List.range (if 32768 < outer * inner then t else 1)
  lines := List.range outer
  blocks := match plan thr t outer inner with
    | .ok pl => (List.range pl.nOuter).flatMap fun i =>
        (List.range pl.nInner).map fun j => (i, j)
    | .error _ => []
  level := fun s => match plan thr t outer inner with
    | .ok pl => (List.range pl.nOuter).filter fun d => d % (2 * s) = 0
    | .error _ => []

/-- The environment in which every loop runs backwards. -/
def Env.back (thr t outer inner : Nat) : Env :=
  let e := Env.plain thr t outer inner
  { e with
    sumOrder := e.sumOrder.reverse
    lines := e.lines.reverse
    blocks := e.blocks.reverse
    level := fun s => (e.level s).reverse }

theorem Env.plain_ok (thr t outer inner : Nat) (h : 0 < t) :
    (Env.plain thr t outer inner).Ok thr outer inner := by
  refine ⟨h, h, ?_, List.Perm.refl _, ?_, ?_⟩
  · exact List.Perm.refl _
  · intro pl hpl
    simp only [Env.plain] at hpl ⊢
    rw [hpl]
  · intro pl hpl s _
    simp only [Env.plain] at hpl ⊢
    rw [hpl]

theorem Env.back_ok (thr t outer inner : Nat) (h : 0 < t) :
    (Env.back thr t outer inner).Ok thr outer inner := by
  have g := Env.plain_ok thr t outer inner h
  exact ⟨h, h, (List.reverse_perm _).trans g.sums, (List.reverse_perm _).trans g.lines,
    fun pl hpl => (List.reverse_perm _).trans (g.blocks pl hpl),
    fun pl hpl s hs => (List.reverse_perm _).trans (g.level pl hpl s hs)⟩

end Verif.Moments
