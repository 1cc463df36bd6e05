import Verif.Model.Value

/-! # Maps: sorted arrays of pairs (lube/var.cpp) -/

namespace Libube

/-- `var::insert` into an array of pairs (lube/var.cpp:1106-1107 and 1117-1128): the key is
    placed at `i`, its value cleared, the rest moved up. -/
def insertPair (ps : List (Val × Val)) (k : Val) (i : Nat) : Outcome (List (Val × Val)) :=
  if i > ps.length then .thrown (.rangeError "insert(): index too large")
  else .ok (ps.take i ++ (k, .nil) :: ps.drop i)

/-- `var::operator[](var)` on a map or on nil, which becomes an empty map
    (lube/var.cpp:735-753): the map afterwards and the position referred to; `none` if the
    index is nil (747-748).  Arrays indexed by a number held in a var (744-746) are not part of
    this function. -/
def mapRef (n : Nat) (ps : List (Val × Val)) (k : Val) :
    Outcome (List (Val × Val) × Option Nat) :=
  if !k.defined then .ok (ps, none)
  else do
    let i ← binary n (ps.map Prod.fst) k
    match ps[i]? with
    | none => do
      let ps ← insertPair ps k i
      .ok (ps, some i)
    | some p => do
      if ← neq n p.1 k then
        let ps ← insertPair ps k i
        .ok (ps, some i)
      else .ok (ps, some i)

/-- `m[k] = v`: the reference of `operator[](var)` assigned to (lube/var.cpp:735-753 and
    312-314).  Assigning to the nil returned for a nil key has no effect on the map. -/
def mapSet (n : Nat) (ps : List (Val × Val)) (k v : Val) : Outcome (List (Val × Val)) := do
  let (ps, i) ← mapRef n ps k
  match i with
  | none => .ok ps
  | some i =>
    match ps[i]? with
    | some p => .ok (ps.set i (p.1, v))
    | none => .ub .outOfBounds

/-- `m.at(k)` on a map (lube/var.cpp:829-841): nil if absent. -/
def mapAt (n : Nat) (ps : List (Val × Val)) (k : Val) : Outcome Val := do
  let i ← binary n (ps.map Prod.fst) k
  match ps[i]? with
  | none => .ok .nil
  | some p => do
    if ← neq n p.1 k then .ok .nil else .ok p.2

end Libube

namespace Libube

/-- Statements a program can perform on a map variable: `m[k] = v;` and `m[k];`
    (lube/var.cpp:735-753). -/
inductive MapOp where
  | set (k v : Val)
  | touch (k : Val)

/-- The effect of one statement (lube/var.cpp:735-753, 312-314). -/
def MapOp.run (n : Nat) (ps : List (Val × Val)) : MapOp → Outcome (List (Val × Val))
  | .set k v => mapSet n ps k v
  | .touch k => do
    let (ps, _) ← mapRef n ps k
    .ok ps

/-- The effect of a sequence of statements (lube/var.cpp:735-753, 312-314). -/
def mapRun (n : Nat) : List (Val × Val) → List MapOp → Outcome (List (Val × Val))
  | ps, [] => .ok ps
  | ps, op :: ops => do
    let ps ← op.run n ps
    mapRun n ps ops

/-- `var::remove(int)` on a map (lube/var.cpp:1143-1154): the values from `i+1` on move down by
    one (`at(i-1) = at(i)` assigns to the value of a pair, 312-314), the keys stay, and the last
    pair is cut off.  The returned variable is not part of this function. -/
def mapRemove (ps : List (Val × Val)) (i : Int) : Outcome (List (Val × Val)) :=
  if i < 0 then .abort
  else if i > (ps.length : Int) - 1 then .thrown (.rangeError "remove(): index too large")
  else .ok (List.zip (ps.map Prod.fst).dropLast ((ps.map Prod.snd).eraseIdx i.toNat))

end Libube
