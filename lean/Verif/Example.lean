import Verif.Prog
import Mathlib.Data.List.Sort
import Mathlib.Data.List.Rotate

/-!
# Concrete generators and environments

Used by the `example`s that show hypotheses are satisfiable and by the counterexample theorems. A generator is built
from plain streams of numbers; numbers outside the range asked for are replaced by a value inside it.
-/

namespace NiaPy

instance : DecidableRel leNanLast := fun a b => inferInstanceAs (Decidable (b = .nan ∨ a ≤ b))

theorem leNanLast_total (a b : Fl) : leNanLast a b ∨ leNanLast b a := by
  by_cases ha : a = .nan
  · exact Or.inr (Or.inl ha)
  by_cases hb : b = .nan
  · exact Or.inl (Or.inl hb)
  rcases Fl.le_total ha hb with h | h
  · exact Or.inl (Or.inr h)
  · exact Or.inr (Or.inr h)

theorem leNanLast_trans {a b c : Fl} (h : leNanLast a b) (h' : leNanLast b c) : leNanLast a c := by
  rcases h' with h' | h'
  · exact Or.inl h'
  rcases h with h | h
  · subst h; simp at h'
  · exact Or.inr (Fl.le_trans h h')

namespace Ex

/-- Streams of raw numbers from which a generator is made. -/
structure Draws where
  rand : ℕ → ℚ := fun _ => 0
  unif : ℕ → ℚ := fun _ => 0
  norm : ℕ → Fl := fun _ => .fin 0
  int : ℕ → ℕ := fun _ => 0
  rot : ℕ → ℕ := fun _ => 0

/-- Index order by fitness, NaN last, stable. -/
def sortRel (l : List Fl) (i j : ℕ) : Prop := leNanLast (l.getD i .nan) (l.getD j .nan)

instance (l : List Fl) : DecidableRel (sortRel l) := fun i j =>
  inferInstanceAs (Decidable (leNanLast (l.getD i .nan) (l.getD j .nan)))
instance (l : List Fl) : Std.Total (sortRel l) := ⟨fun _ _ => leNanLast_total _ _⟩
instance (l : List Fl) : IsTrans ℕ (sortRel l) := ⟨fun _ _ _ => leNanLast_trans⟩

/-- A generator from raw streams. -/
def Draws.rng (d : Draws) : Rng where
  rand k := if Fl.fin (d.rand k) ≤ Fl.belowOne ∧ 0 ≤ d.rand k then .fin (d.rand k) else .fin 0
  rand_le k := by
    by_cases h : Fl.fin (d.rand k) ≤ Fl.belowOne ∧ 0 ≤ d.rand k
    · simp [h]
    · rw [if_neg h]; exact ⟨Fl.le_refl nofun, by decide +kernel⟩
  unif k _ lo hi := if lo ≤ .fin (d.unif k) ∧ Fl.fin (d.unif k) ≤ hi then .fin (d.unif k) else lo
  unif_mem k _ lo hi h := by
    by_cases h' : lo ≤ .fin (d.unif k) ∧ Fl.fin (d.unif k) ≤ hi
    · simp [h']
    · rw [if_neg h']; exact ⟨Fl.le_refl (Fl.ne_nan_of_le_left h), h⟩
  dist k _ _ _ := d.norm k
  int k n := d.int k % n
  int_lt k n h := Nat.mod_lt _ h
  perm k n := (List.range n).rotate (d.rot k)
  perm_perm k n := List.rotate_perm _ _
  argsort _ l := (List.range l.length).insertionSort (sortRel l)
  argsort_perm _ l := List.perm_insertionSort _ _
  argsort_sorted _ l := List.pairwise_insertionSort (sortRel l) _

/-- A silent callback. -/
def noCallback {X : Type} : ℕ → ℕ → Event X → Except PyErr Unit := fun _ _ _ => .ok ()

/-- An environment with the identity as repair function and the same streams for seed and entropy. -/
def env {X : Type} (obj : ℕ → X → Except PyErr Fl) (opt : OptType := .minimization) (me mi : Option ℕ := none)
    (cutoff : Option Fl := none) (d : Draws := {}) (rep : Rng → ℕ → X → X := fun _ _ x => x) : Env X :=
  { TaskCfg.mk' obj opt me mi cutoff with
    repairFn := rep, rng := d.rng, entropy := d.rng, callback := noCallback }

/-- `f(x) = x` on the rationals, and a client that evaluates 5, 7, 3 and ends an iteration. -/
def idObj : ℕ → ℚ → Except PyErr Fl := fun _ x => .ok (.fin x)
def client : Prog ℚ Fl := do
  let _ ← Prog.eval 5
  let _ ← Prog.eval 7
  let v ← Prog.eval 3
  Prog.next
  return v

/-- The objective raises at 7. -/
def raising : ℕ → ℚ → Except PyErr Fl := fun _ x => if x = 7 then .error (.user 0) else .ok (.fin x)

/-- The same client, catching an exception of the second evaluation. -/
def catching : Prog ℚ Fl := do
  let _ ← Prog.eval 5
  let _ ← (Prog.eval 7).tryCatch fun _ => .pure (.fin 0)
  let v ← Prog.eval 3
  return v

end Ex
end NiaPy
