import Verif.Model.MapOps
import Verif.Model.Cast

/-! # Graphs (lube/graph.cpp)

`boost::adjacency_list` is replaced by its documented behaviour: vertices are numbered from 0, adding an edge adds the vertices it names if they
do not exist, and edges are listed in the order in which they were added.  `write_graphviz` is that of boost/graph/graphviz.hpp. -/

namespace Libube.Graph

open CString

/-- The var at a vertex (lube/graph.cpp:17-24): nil, or a map from strings to strings.  The interface of the class has no means to set it. -/
abbrev Label := Option (List (Bytes × Bytes))

/-- `mGraph` (lube/graph.cpp:37). -/
structure G where
  labels : List Label
  edges : List (Nat × Nat)

/-- A new graph (lube/graph.cpp:32). -/
def empty : G := ⟨[], []⟩

/-- `Graph::addVertex` (lube/graph.cpp:56-62). -/
def addVertex (g : G) : Nat × G := (g.labels.length, { g with labels := g.labels ++ [none] })

/-- `Graph::addEdge` (lube/graph.cpp:49-54).  A negative number is converted to a huge one, which boost takes for the number of a vertex. -/
def addEdge (g : G) (u v : Int) : Outcome G :=
  if u < 0 ∨ v < 0 then .ub .badPointer
  else .ok ⟨g.labels ++ List.replicate (max u.toNat v.toNat + 1 - g.labels.length) none, g.edges ++ [(u.toNat, v.toNat)]⟩

/-- `"NAME"` -/
def name : Bytes := [78, 65, 77, 69]

/-- The label as a var. -/
def value : Label → Val
  | none => .nil
  | some ps => .map (ps.map fun p => (.chars p.1, .chars p.2))

/-- `[label="` -/
def labelHead : Bytes := [91, 108, 97, 98, 101, 108, 61, 34]

/-- The text of a label without quotation marks (lube/graph.cpp:75; lube/string.cpp:303-316).  That `replace` also removes them from the label itself is left
    out, as nothing else reads labels. -/
def labelText (l : Label) : Outcome Bytes :=
  match l with
  | none => .thrown (.error "var::at(): uninitialised")
  | some ps => do
    match ← mapAt 2 (ps.map fun p => (.chars p.1, .chars p.2)) (.chars name) with
    | .chars s => .ok (cstr (s.filter (· ≠ 34)))
    | _ => .thrown (.error "var::atype(): Undefined")

/-- `LabelWriter::operator()` (lube/graph.cpp:69-77): what is written, and how the call ends.  `index` returns -1 if there is no such key; its
    type is `ind`, which is true if it is not negative (lube/ind.h:38).  The operands of `<<` are evaluated from the left (C++17). -/
def writeLabel (l : Label) : Bytes × Outcome Unit :=
  match index 2 (value l) (.chars name) with
  | .ok i =>
    if 0 ≤ i then
      match labelText l with
      | .ok t => (labelHead ++ t ++ [34, 93], .ok ())
      | o => (labelHead, (fun _ => ()) <$> o)
    else ([], .ok ())
  | o => ([], (fun _ => ()) <$> o)

/-- The vertices in a file (boost/graph/graphviz.hpp, called at lube/graph.cpp:86) from vertex `i` on: what is written, and how it ends. -/
def writeVertices : Nat → List Label → Bytes × Outcome Unit
  | _, [] => ([], .ok ())
  | i, l :: ls =>
    match writeLabel l with
    | (t, .ok ()) =>
      let (rest, o) := writeVertices (i + 1) ls
      (showNat i ++ t ++ [59, 10] ++ rest, o)
    | (t, o) => (showNat i ++ t, o)

/-- The edges in a file (boost/graph/graphviz.hpp, called at lube/graph.cpp:86). -/
def writeEdges (es : List (Nat × Nat)) : Bytes := es.flatMap fun e => showNat e.1 ++ [45, 62] ++ showNat e.2 ++ [32, 59, 10]

/-- `Graph::writeGraphViz` (lube/graph.cpp:82-87): the contents of the file, and how the call ends. -/
def writeGraphViz (g : G) : Bytes × Outcome Unit :=
  let head := [100, 105, 103, 114, 97, 112, 104, 32, 71, 32, 123, 10]
  match writeVertices 0 g.labels with
  | (t, .ok ()) => (head ++ t ++ writeEdges g.edges ++ [125, 10], .ok ())
  | (t, o) => (head ++ t, o)

/-- A call of the class. -/
inductive Op where
  | vertex
  | edge (u v : Int)

/-- A sequence of calls (lube/graph.h:22-24): the results of `addVertex`, and the graph. -/
def run : List Op → G → Outcome (List Nat × G)
  | [], g => .ok ([], g)
  | .vertex :: ops, g => do
    let (i, g) := addVertex g
    let (is, g) ← run ops g
    .ok (i :: is, g)
  | .edge u v :: ops, g => do
    let g ← addEdge g u v
    run ops g

end Libube.Graph
