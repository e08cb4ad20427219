/-
Traversal of the sensor-connectivity graph: traverse-sensor-links.c, heap.cc, heap.h, and the python wrapper
mrcal-pywrap.c:4239-4315.
-/
namespace Mrcal.Links

/-- `pairwise_index` traverse-sensor-links.c:23-35. The C computes this in `int`: here the integers are
unbounded. `pairwise_fits_int` (Props/SensorLinksProps.lean) says when this makes no difference. -/
def pairwiseIndex (a b N : Int) : Int :=
  if a > b then a + b * N - (b + 1) * (b + 2) / 2
  else b + a * N - (a + 1) * (a + 2) / 2

/-- Reading the packed array. Indices are never negative where this is used (`pairwise_bijection`); a
negative one would be an out-of-bounds read in the C. -/
def lookup (m : List Nat) (i : Int) : Nat :=
  if i < 0 then 0 else m.getD i.toNat 0

/-- `cost_edge` traverse-sensor-links.c:37-48 -/
def costEdge (m : List Nat) (N : Nat) (i j : Nat) : Nat :=
  65536 - lookup m (pairwiseIndex i j N)

/-- `mrcal_heap_node_t` heap.h:23-28. `cost` is a 47-bit field, `idxParent` is a uint16: the truncations are in
the stores below. -/
structure Node where
  idxParent : Nat
  done : Bool
  cost : Nat
  deriving DecidableEq, Repr

/-- The C++ standard library's heap algorithms, as heap.cc:35-65 uses them: each works on a range of indices
ordered by `Compare_nodes_greater` (heap.cc:15-23). `cost` is what the comparator looks at. -/
structure HeapLib where
  /-- `std::push_heap` on the whole range -/
  pushHeap : (Nat → Nat) → List Nat → List Nat
  /-- `std::pop_heap` on the whole range -/
  popHeap : (Nat → Nat) → List Nat → List Nat
  /-- `std::make_heap` on the whole range -/
  makeHeap : (Nat → Nat) → List Nat → List Nat

/-- the nodes and the heap -/
structure St where
  nodes : Nat → Node
  heap : List Nat

def St.cost (s : St) : Nat → Nat := fun i => (s.nodes i).cost

def setNode (f : Nat → Node) (i : Nat) (n : Node) : Nat → Node := fun j => if j = i then n else f j

/-- `mrcal_heap_push` heap.cc:34-40 -/
def heapPush (L : HeapLib) (s : St) (x : Nat) : St :=
  { s with heap := L.pushHeap s.cost (s.heap ++ [x]) }

/-- `mrcal_heap_resort` heap.cc:54-60 -/
def heapResort (L : HeapLib) (s : St) : St :=
  { s with heap := L.makeHeap s.cost s.heap }

/-- `mrcal_heap_pop` heap.cc:43-51. `buffer[0]` of an empty heap would be garbage; it's never asked for: the
caller checks. -/
def heapPop (L : HeapLib) (s : St) : Option (Nat × St) :=
  match s.heap with
  | [] => none
  | x :: _ => some (x, { s with heap := (L.popHeap s.cost s.heap).dropLast })

/-- one iteration of the loop in `visit` traverse-sensor-links.c:61-99 -/
def visitNeighbor (L : HeapLib) (N : Nat) (m : List Nat) (idx : Nat) (s : St) (nb : Nat) : St :=
  if nb = idx then s
  else if lookup m (pairwiseIndex nb idx N) = 0 then s
  else if (s.nodes nb).done then s
  else
    let via := (s.nodes idx).cost + costEdge m N nb idx
    let node := { s.nodes nb with cost := via % 2 ^ 47, idxParent := idx % 2 ^ 16 }
    let upd : St := { s with nodes := setNode s.nodes nb node }
    if (s.nodes nb).cost = 0 then heapPush L upd nb
    else if via < (s.nodes nb).cost then heapResort L upd
    else s

/-- `visit` traverse-sensor-links.c:51-100 -/
def visit (L : HeapLib) (N : Nat) (m : List Nat) (idx : Nat) (s : St) : St :=
  let node := { s.nodes idx with done := true }
  (List.range N).foldl (visitNeighbor L N m idx) { s with nodes := setNode s.nodes idx node }

/-- the loop traverse-sensor-links.c:143-155. `trace` is the (sensor, parent) pairs the callback has been called
with so far; `cb` is the callback's return value, and it may depend on everything that happened. The result is
all the callback calls and the return value. The loop has no bound in the C: `fuel` bounds it
here, and `none` says that this wasn't enough. -/
def mainLoop (L : HeapLib) (N : Nat) (m : List Nat) (cb : List (Nat × Nat) → Bool) :
    Nat → St → List (Nat × Nat) → Option (List (Nat × Nat) × Bool)
  | 0, _, _ => none
  | fuel + 1, s, trace =>
    match heapPop L s with
    | none => some (trace, true)
    | some (top, s) =>
      let trace := trace ++ [(top, (s.nodes top).idxParent)]
      if !cb trace then some (trace, false)
      else mainLoop L N m cb fuel (visit L N m top s) trace

/-- `mrcal_traverse_sensor_links` traverse-sensor-links.c:102-158. With `N=0` the C writes past the end of
`nodes[]`. -/
def traverse (L : HeapLib) (N : Nat) (m : List Nat) (cb : List (Nat × Nat) → Bool) (fuel : Nat) :
    Option (List (Nat × Nat) × Bool) :=
  mainLoop L N m cb fuel (visit L N m 0 ⟨fun _ => ⟨0, false, 0⟩, []⟩) []

/-- The packing in the python wrapper mrcal-pywrap.c:4287-4292 -/
def packUpper (N : Nat) (M : Nat → Nat → Nat) : List Nat :=
  (List.range N).flatMap fun i => (List.range' (i + 1) (N - (i + 1))).map fun j => M i j

/-- the python `traverse_sensor_links` mrcal-pywrap.c:4239-4315, once the arguments have been accepted. `cb` is
"didn't raise" -/
def pyTraverse (L : HeapLib) (N : Nat) (M : Nat → Nat → Nat) (cb : List (Nat × Nat) → Bool) (fuel : Nat) :
    Option (List (Nat × Nat) × Bool) :=
  traverse L N (packUpper N M) cb fuel

end Mrcal.Links
