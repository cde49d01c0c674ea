import Verif.Model.Content
/-
`ak.fields` (src/awkward/operations/describe.py:252-268).
-/

namespace Awk

/-- src/libawkward/util.cpp:567-581 `keys`: the names, or the numbers of the slots of a tuple. -/
def recordKeys (keys : Option (List String)) (numfields : Nat) : List String :=
  match keys with
  | some ks => ks
  | none => (List.range numfields).map toString

/-- UnionArray.cpp:1424-1448 `keys`: the names of the first content without those that another content does not
have. -/
def unionKeys : List (List String) → List String
  | [] => []
  | out :: rest => rest.foldl (fun out tmp => out.filter (fun x => tmp.any (fun k => k == x))) out

namespace Content

mutual
/-- `keys` of each class: EmptyArray.cpp:425-428, NumpyArray.cpp:1537-1540, RegularArray.cpp:781-784,
ListArray.cpp:897-901, ListOffsetArray.cpp:895-899, IndexedArray.cpp:1517-1521, ByteMaskedArray.cpp:823-826,
BitMaskedArray.cpp:787-790, UnmaskedArray.cpp:692-695, RecordArray.cpp:1030-1033, UnionArray.cpp:1424-1448. -/
def fieldNames : Content → List String
  | empty _ => []
  | numpy _ _ _ => []
  | regular _ c _ _ => c.fieldNames
  | listArray _ _ _ c => c.fieldNames
  | listOffset _ _ c => c.fieldNames
  | indexed _ _ c => c.fieldNames
  | indexedOption _ _ c => c.fieldNames
  | byteMasked _ _ _ c => c.fieldNames
  | bitMasked _ _ _ _ _ c => c.fieldNames
  | unmasked _ c => c.fieldNames
  | record _ keys cs _ => recordKeys keys cs.length
  | union _ _ _ cs => unionKeys (fieldNamesAll cs)
/-- The calls of `keys` in UnionArray.cpp:1431-1433. -/
def fieldNamesAll : List Content → List (List String)
  | [] => []
  | c :: cs => c.fieldNames :: fieldNamesAll cs
end

end Content
end Awk
