import Verif.Lstk
import Verif.Slice

/-!
# JSON output of slices (model)

Models `/repo/src/patches/slices_to_json.cpp` for dense slices, the slice visitor that writes them
(`/repo/src/pipelines/slicer.cpp:590-605, 686-687`), and of the JSON library (nlohmann) the access operators and `dump(3)`.

Simplifications: strings are written without escapes (the strings that occur need none, which is proved); the flush is left
out.
-/

namespace Verif.Json

/-- The values of `nlohmann::json` that occur. An object is a `std::map`, here a list ordered by key. -/
inductive Json where
  | null
  | str (s : Str)
  | arr (l : List Json)
  | obj (l : List (Str × Json))

/-- Order of the keys (`std::less<std::string>`). -/
def before : Str → Str → Bool
  | [], [] => false
  | [], _ :: _ => true
  | _ :: _, [] => false
  | a :: as, b :: bs => if a = b then before as bs else decide (a.toNat < b.toNat)

/-- Inserting into or overwriting in a `std::map`. -/
def insertKey (k : Str) (v : Json) : List (Str × Json) → List (Str × Json)
  | [] => [(k, v)]
  | (k', v') :: l => if k = k' then (k, v) :: l else if before k k' then (k, v) :: (k', v') :: l else (k', v') :: insertKey k v l

/-- `json::operator[](key)` and assigning to the result: null becomes an object, anything else but an object throws. -/
def setKey (k : Str) (v : Json) : Json → Outcome Json
  | .null => .ok (.obj [(k, v)])
  | .obj l => .ok (.obj (insertKey k v l))
  | _ => .throws

/-- `json::operator[](idx)` and changing the result: null becomes an array, an array is filled up with null, anything else
throws. A negative index becomes a huge one, for which there is no memory. -/
def atIdx (i : Int) (f : Json → Outcome Json) (j : Json) : Outcome Json :=
  if i < 0 then .throws
  else
    let go (l : List Json) : Outcome Json := do
      let l := l ++ List.replicate (i.toNat + 1 - l.length) .null
      let x ← f (l[i.toNat]?.getD .null)
      .ok (.arr (l.set i.toNat x))
    match j with
    | .null => go []
    | .arr l => go l
    | _ => .throws

/-- slices_to_json.cpp:7-22 `init_blank_json_slice`. -/
def blank (L : Layout) : Json :=
  .arr (List.replicate (L.furthest.row + 1).toNat (.arr (List.replicate (L.furthest.col + 1).toNat .null)))

/-- slices_to_json.cpp:39-50 `orientation_to_json`. -/
def edge (b : Boundary) : Str :=
  match b.ty with
  | .none => "None".toList
  | .connected => if b.active then "AncillaJoin".toList else "None".toList
  | .rough => if b.active then "DashedStiched".toList else "Dashed".toList
  | .smooth => if b.active then "SolidStiched".toList else "Solid".toList
  | .reserved1 => if b.active then "SolidStiched".toList else "None".toList
  | .reserved2 => if b.active then "DashedStiched".toList else "None".toList

/-- slices_to_json.cpp:37-58 `boundaries_to_array_edges_json`. -/
def edges (b : CellBoundaries) : Json :=
  .obj [("edges".toList, .obj [("Bottom".toList, .str (edge b.bottom)), ("Left".toList, .str (edge b.left)),
    ("Right".toList, .str (edge b.right)), ("Top".toList, .str (edge b.top))])]

/-- slices_to_json.cpp:67-77. -/
def typeStr : PatchType → Str
  | .distillation => "DistillationQubit".toList
  | .preparedState => "DistillationQubit".toList
  | .qubit => "Qubit".toList
  | .routing => "Ancilla".toList
  | .dead => "Ancilla".toList

/-- slices_to_json.cpp:82-96. -/
def activityJson : PatchActivity → Json
  | .measurement => .str "Measurement".toList
  | .unitary => .str "Unitary".toList
  | _ => .null

/-- slices_to_json.cpp:100-105. -/
def patchText (p : DensePatch) : Str :=
  match p.id with
  | some n => "Id: ".toList ++ showNat n
  | none => if (p.type = .distillation ∧ p.activity = .none) ∨ p.type = .qubit then "Not bound".toList else []

/-- slices_to_json.cpp:61-107 `dense_patch_to_json`. -/
def patchJson (p : DensePatch) : Outcome Json := do
  let j := edges p.bounds
  let j ← match p.opId with
    | some n => setKey "operation_id".toList (.str (showNat n)) j
    | none => .ok j
  let j ← setKey "patch_type".toList (.str (typeStr p.type)) j
  let j ← setKey "activity".toList (.obj [("activity_type".toList, activityJson p.activity)]) j
  setKey "text".toList (.str (patchText p)) j

/-- slices_to_json.cpp:113-115, the loop over the cells. -/
def drawCells (s : DSlice) : List Cell → Json → Outcome Json
  | [], j => .ok j
  | c :: cs, j => do
    let j ← match s.cells c with
      | some p => do
        let v ← patchJson p
        atIdx c.row (atIdx c.col fun _ => .ok v) j
      | none => .ok j
    drawCells s cs j

/-- slices_to_json.cpp:25-34 `annotate_time_to_next_distilled_state`; `front()` of an empty vector and reading past the end of the
times are undefined. -/
def annotate (s : DSlice) : List (List OccCell) → Nat → Json → Outcome Json
  | [], _, j => .ok j
  | [] :: _, _, _ => .ub
  | (o :: _) :: rs, k, j =>
    match s.times[k]? with
    | none => .ub
    | some t => do
      let j ← atIdx o.cell.row (atIdx o.cell.col (setKey "text".toList (.str ("Time to next magic state:".toList ++ showNat t)))) j
      annotate s rs (k + 1) j

/-- slices_to_json.cpp:110-120 `slice_to_json`. -/
def sliceJson (L : Layout) (s : DSlice) : Outcome Json := do
  let j ← drawCells s s.allCells (blank L)
  annotate s L.regions 0 j

def spaces (n : Nat) : Str := List.replicate n ' '

mutual

/-- `json::dump(3)` of a value that starts at the given indentation. -/
def dump (ind : Nat) : Json → Str
  | .null => "null".toList
  | .str s => '"' :: (s ++ ['"'])
  | .arr [] => "[]".toList
  | .arr (x :: xs) => "[\n".toList ++ spaces (ind + 3) ++ dump (ind + 3) x ++ dumpItems (ind + 3) xs ++ '\n' :: spaces ind ++ "]".toList
  | .obj [] => "{}".toList
  | .obj ((k, x) :: xs) =>
    "{\n".toList ++ spaces (ind + 3) ++ ('"' :: k ++ "\": ".toList) ++ dump (ind + 3) x ++ dumpMembers (ind + 3) xs ++ '\n' :: spaces ind ++ "}".toList

def dumpItems (ind : Nat) : List Json → Str
  | [] => []
  | x :: xs => ",\n".toList ++ spaces ind ++ dump ind x ++ dumpItems ind xs

def dumpMembers (ind : Nat) : List (Str × Json) → Str
  | [] => []
  | (k, x) :: xs => ",\n".toList ++ spaces ind ++ ('"' :: k ++ "\": ".toList) ++ dump ind x ++ dumpMembers ind xs

end

/-- slicer.cpp:593-605: what the slice visitor has written after some slices. -/
def written (L : Layout) : List DSlice → Bool → Outcome Str
  | [], _ => .ok []
  | s :: ss, first => do
    let j ← sliceJson L s
    let rest ← written L ss false
    .ok ((if first then "[\n".toList else ",\n".toList) ++ dump 0 j ++ rest)

/-- slicer.cpp:593-605, 686-687: all that is written for the slices shown when the run ends without an exception. -/
def output (L : Layout) (ss : List DSlice) : Outcome Str := do
  let t ← written L ss true
  .ok (t ++ "]\n".toList)

end Verif.Json
