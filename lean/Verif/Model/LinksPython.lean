import Mathlib.Data.Real.Basic
/-
The reference implementation of the traversal of sensors in python: `_traverse_sensor_links_python()` calibration.py:1103-1183. The callbacks are functions that don't raise, and whose results don't change. Sensors are natural numbers: negative ones,
that python would count from the end, aren't modelled.
-/
namespace Mrcal.LinksPython

/-- `Node` calibration.py:1135-1140. `cost` is a number or None. The initial parent of -1 isn't ever used: it's 0 here -/
structure Node where
  parent : Nat
  cost : Option ℝ
  done : Bool

/-- the functions in heapq that are used, for elements compared by `__lt__` calibration.py:1142-1143: heappush(), heapify(), heappop(). An empty heap isn't ever popped -/
structure Heapq where
  push : (Nat → ℝ) → List Nat → Nat → List Nat
  heapify : (Nat → ℝ) → List Nat → List Nat
  pop : (Nat → ℝ) → List Nat → Option (Nat × List Nat)

/-- the nodes, the heap, and the (sensor,parent) that callback__sensor_link() was called with so far -/
structure St where
  nodes : Nat → Node
  heap : List Nat
  calls : List (Nat × Nat)

/-- the cost of a node. Used only for nodes that have one -/
noncomputable def St.key (s : St) (i : Nat) : ℝ := ((s.nodes i).cost).getD 0

/-- assigns one node -/
def setNode (f : Nat → Node) (i : Nat) (n : Node) : Nat → Node := fun j => if j = i then n else f j

/-- the body of the loop in `visit()` calibration.py:1152-1173. `none`: IndexError, from `nodes[neighbor_idx]` -/
noncomputable def neighbor (L : Heapq) (N : Nat) (cost : Nat → Nat → ℝ) (idx : Nat) (s : St) (n : Nat) : Option St := by
  classical
  exact
    if N ≤ n then none
    else if (s.nodes n).done then some s
    else
      let via := s.key idx + cost n idx
      let upd : St := { s with nodes := setNode s.nodes n ⟨idx, some via, false⟩ }
      match (s.nodes n).cost with
      | none => some { upd with heap := L.push upd.key upd.heap n }
      | some c => if via < c then some { upd with heap := L.heapify upd.key upd.heap } else some s

/-- `visit()` calibration.py:1145-1173 -/
noncomputable def visit (L : Heapq) (N : Nat) (nb : Nat → List Nat) (cost : Nat → Nat → ℝ) (idx : Nat) (s : St) : Option St :=
  let s : St := if idx ≠ 0 then { s with calls := s.calls ++ [(idx, (s.nodes idx).parent)] } else s
  let s : St := { s with nodes := setNode s.nodes idx { s.nodes idx with done := true } }
  (nb idx).foldlM (neighbor L N cost idx) s

/-- the loop calibration.py:1181-1183. The number of iterations isn't bounded in the code: `fuel` bounds it here, and the outer `none` says that it wasn't enough. The inner `none` is an exception -/
noncomputable def loop (L : Heapq) (N : Nat) (nb : Nat → List Nat) (cost : Nat → Nat → ℝ) : Nat → St → Option (Option (List (Nat × Nat)))
  | 0, _ => none
  | fuel + 1, s =>
    match s.heap with
    | [] => some (some s.calls)
    | _ :: _ =>
      match L.pop s.key s.heap with
      | none => some none
      | some (top, heap) =>
        match visit L N nb cost top { s with heap := heap } with
        | none => some none
        | some s => loop L N nb cost fuel s

/-- `_traverse_sensor_links_python()` calibration.py:1176-1183. With no sensors `nodes[0]` is an exception -/
noncomputable def traverse (L : Heapq) (N : Nat) (nb : Nat → List Nat) (cost : Nat → Nat → ℝ) (fuel : Nat) : Option (Option (List (Nat × Nat))) :=
  if N = 0 then some none
  else
    match visit L N nb cost 0 ⟨setNode (fun _ => ⟨0, none, false⟩) 0 ⟨0, some 0, false⟩, [], []⟩ with
    | none => some none
    | some s => loop L N nb cost fuel s

end Mrcal.LinksPython
