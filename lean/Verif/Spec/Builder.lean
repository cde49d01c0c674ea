import Verif.Model.Builder
/-
What the commands of an ArrayBuilder mean: a machine that keeps the completed values and the value
that is being put together, and Python objects as sequences of commands.
-/

namespace Awk
namespace Spec
open R

/-- A value that has been begun, with what has been given of it so far. `sub` is the value inside it
that has been begun but not ended. -/
inductive Part where
  /-- nothing has been begun -/
  | idle
  | list (items : List Val) (sub : Part)
  /-- the values that have been given to each field, and the field that is being filled -/
  | tuple (fields : List (List Val)) (cur : Option Nat) (sub : Part)
  | record (fields : List (String × List Val)) (cur : Option String) (sub : Part)

/-- Nothing has been begun. -/
def Part.isIdle : Part → Bool
  | idle => true
  | _ => false

/-- The value of a command that gives a value. -/
def opVal : Op → Option Val
  | .null => some .null
  | .bool x => some (.atom (.bool x))
  | .int x => some (.atom (.int x))
  | .real x => some (.atom (.real x))
  | .complex re im => some (.atom (.complex re im))
  | .str true codes => some (.str (codes.map (fun (n : Nat) => .atom (.int n))))
  | .str false codes => some (.bytes (codes.map (fun (n : Nat) => .atom (.int n))))
  | _ => none

/-- What a command leads to: a complete value, or a value with more to come. -/
inductive Out where
  | emit (v : Val)
  | stay (p : Part)

/-- The value of a field at the end of its tuple or record. -/
def single : List Val → R Val
  | [] => ok .null
  | [v] => ok v
  | _ => err "filled more than once"

/-- The fields of a tuple, with one more value given to the `i`-th. -/
def giveAt (fields : List (List Val)) (i : Nat) (v : Val) : List (List Val) :=
  fields.modify i (fun vs => vs ++ [v])

/-- The fields of a record, with one more value given to `key`. -/
def giveTo (fields : List (String × List Val)) (key : String) (v : Val) :
    List (String × List Val) :=
  fields.map (fun e => if e.1 = key then (e.1, e.2 ++ [v]) else e)

/-- The fields of a record, with `key` among them. -/
def withKey (fields : List (String × List Val)) (key : String) : List (String × List Val) :=
  if key ∈ fields.map Prod.fst then fields else fields ++ [(key, [])]

/-- One command. -/
def feed (op : Op) : Part → R Out
  | .idle =>
    match opVal op with
    | some v => ok (.emit v)
    | none => match op with
      | .beginList => ok (.stay (.list [] .idle))
      | .beginTuple n => ok (.stay (.tuple (List.replicate n []) none .idle))
      | .beginRecord _ => ok (.stay (.record [] none .idle))
      | _ => err "nothing has been begun"
  | .list items sub =>
    if sub.isIdle = true ∧ op = .endList then ok (.emit (.list items))
    else feed op sub >>= fun out => match out with
      | .emit v => ok (.stay (.list (items ++ [v]) .idle))
      | .stay p => ok (.stay (.list items p))
  | .tuple fields cur sub =>
    match (if sub.isIdle = true then op else .null) with
    | .index i =>
      if 0 ≤ i ∧ i < fields.length then ok (.stay (.tuple fields (some i.toNat) .idle))
      else err "no such field"
    | .endTuple => mapR single fields >>= fun vs => ok (.emit (.tuple vs))
    | _ => match cur with
      | none => err "no field has been chosen"
      | some i => feed op sub >>= fun out => match out with
        | .emit v => ok (.stay (.tuple (giveAt fields i v) cur .idle))
        | .stay p => ok (.stay (.tuple fields cur p))
  | .record fields cur sub =>
    match (if sub.isIdle = true then op else .null) with
    | .field key => ok (.stay (.record (withKey fields key) (some key) .idle))
    | .endRecord =>
      mapR (fun e => single e.2 >>= fun v => ok (e.1, v)) fields >>= fun fs => ok (.emit (.record fs))
    | _ => match cur with
      | none => err "no field has been chosen"
      | some key => feed op sub >>= fun out => match out with
        | .emit v => ok (.stay (.record (giveTo fields key v) cur .idle))
        | .stay p => ok (.stay (.record fields cur p))

/-- A sequence of commands, beginning with the completed values and the begun one. -/
def feedAll : List Val → Part → List Op → R (List Val × Part)
  | done, p, [] => ok (done, p)
  | done, p, op :: ops => feed op p >>= fun out => match out with
    | .emit v => feedAll (done ++ [v]) .idle ops
    | .stay p => feedAll done p ops

/-- The kinds of values that an ArrayBuilder keeps apart. -/
inductive Kind where
  | bool | int | float
  | str (utf8 : Bool)
  | list
  | tuple (numfields : Nat)
  | record (name : Option String)
deriving Repr, DecidableEq

/-- The kind of the value that the command gives or begins. -/
def opKind : Op → Option Kind
  | .bool _ => some .bool
  | .int _ => some .int
  | .real _ => some .float
  | .str utf8 _ => some (.str utf8)
  | .beginList => some .list
  | .beginTuple n => some (.tuple n)
  | .beginRecord name => some (.record name)
  | _ => none

/-- The commands that the theorems are about: the kinds of their values are in the list, no
complex numbers, strings of one encoding, no negative field numbers and no records whose name is the
empty string. -/
structure Plain (utf8 : Bool) (kinds : List Kind) (op : Op) : Prop where
  kind : ∀ k, opKind op = some k → k ∈ kinds
  real : ∀ re im, op ≠ .complex re im
  encoding : ∀ u codes, op = .str u codes → u = utf8
  nonneg : ∀ i, op = .index i → 0 ≤ i
  named : op ≠ .beginRecord (some "")

/-- If the command is `index i`, it is meant for the innermost tuple, and every tuple around that one
has more than `i` fields. -/
def Narrow (op : Op) : Part → Prop
  | .idle => True
  | .list _ sub => Narrow op sub
  | .tuple fields _ sub =>
    (∀ i, op = .index i → sub.isIdle = false → i < fields.length) ∧ Narrow op sub
  | .record _ _ sub => Narrow op sub

/-- `Narrow` for every command of a sequence. -/
def NarrowAll : Part → List Op → Prop
  | _, [] => True
  | p, op :: ops => Narrow op p ∧ match feed op p with
    | ok (.emit _) => NarrowAll .idle ops
    | ok (.stay p) => NarrowAll p ops
    | _ => True

/-- How a value may be shown: integers may have become reals, and a record may have fields that were
not given, which are missing values. The order of the fields does not matter. -/
inductive Shown : Val → Val → Prop
  | null : Shown .null .null
  | atom (a : Atom) : Shown (.atom a) (.atom a)
  | number (i : Int) : Shown (.atom (.int i)) (.atom (.real i))
  | str (vs : List Val) : Shown (.str vs) (.str vs)
  | bytes (vs : List Val) : Shown (.bytes vs) (.bytes vs)
  | list {vs ws : List Val} : vs.length = ws.length →
      (∀ i (h : i < vs.length) (h' : i < ws.length), Shown vs[i] ws[i]) → Shown (.list vs) (.list ws)
  | tuple {vs ws : List Val} : vs.length = ws.length →
      (∀ i (h : i < vs.length) (h' : i < ws.length), Shown vs[i] ws[i]) →
      Shown (.tuple vs) (.tuple ws)
  | record {fs gs : List (String × Val)} (W : String → Val) : (gs.map Prod.fst).Nodup →
      (∀ k v, (k, v) ∈ fs → (k, W k) ∈ gs) → (∀ k v, (k, v) ∈ fs → Shown v (W k)) →
      (∀ k w, (k, w) ∈ gs → k ∉ fs.map Prod.fst → w = .null) → Shown (.record fs) (.record gs)

/-- The Python objects that `ak.from_iter` takes (without complex numbers and date-times). -/
inductive PyVal where
  | none
  | bool (x : Bool)
  | int (x : Int)
  | float (x : Rat)
  | str (codes : List Nat)
  | bytes (codes : List Nat)
  | list (items : List PyVal)
  | tuple (items : List PyVal)
  | dict (items : List (String × PyVal))

namespace PyVal

mutual
/-- The object as an element of an array. -/
def val : PyVal → Val
  | none => .null
  | bool x => .atom (.bool x)
  | int x => .atom (.int x)
  | float x => .atom (.real x)
  | str codes => .str (codes.map (fun (n : Nat) => .atom (.int n)))
  | bytes codes => .bytes (codes.map (fun (n : Nat) => .atom (.int n)))
  | list items => .list (vals items)
  | tuple items => .tuple (vals items)
  | dict items => .record (fieldVals items)
/-- The objects of a list or tuple. -/
def vals : List PyVal → List Val
  | [] => []
  | x :: xs => x.val :: vals xs
/-- The objects of a dict. -/
def fieldVals : List (String × PyVal) → List (String × Val)
  | [] => []
  | (k, x) :: xs => (k, x.val) :: fieldVals xs
end

mutual
/-- src/python/content.cpp:874-931 `builder_fromiter`: the commands for a Python object. -/
def commands : PyVal → List Op
  | none => [.null]
  | bool x => [.bool x]
  | int x => [.int x]
  | float x => [.real x]
  | str codes => [.str true codes]
  | bytes codes => [.str false codes]
  | list items => [.beginList] ++ listCommands items ++ [.endList]
  | tuple items => [.beginTuple items.length] ++ tupleCommands 0 items ++ [.endTuple]
  | dict items => [.beginRecord Option.none] ++ dictCommands items ++ [.endRecord]
/-- The items of a list. -/
def listCommands : List PyVal → List Op
  | [] => []
  | x :: xs => x.commands ++ listCommands xs
/-- The items of a tuple, from the `i`-th on. -/
def tupleCommands (i : Nat) : List PyVal → List Op
  | [] => []
  | x :: xs => [.index i] ++ x.commands ++ tupleCommands (i + 1) xs
/-- The items of a dict. -/
def dictCommands : List (String × PyVal) → List Op
  | [] => []
  | (k, x) :: xs => [.field k] ++ x.commands ++ dictCommands xs
end

mutual
/-- The keys of every dict are different. -/
def DistinctKeys : PyVal → Prop
  | list items => DistinctKeysAll items
  | tuple items => DistinctKeysAll items
  | dict items => (items.map Prod.fst).Nodup ∧ DistinctKeysFields items
  | _ => True
/-- Every item of a list or tuple. -/
def DistinctKeysAll : List PyVal → Prop
  | [] => True
  | x :: xs => x.DistinctKeys ∧ DistinctKeysAll xs
/-- Every item of a dict. -/
def DistinctKeysFields : List (String × PyVal) → Prop
  | [] => True
  | (_, x) :: xs => x.DistinctKeys ∧ DistinctKeysFields xs
end

mutual
/-- Strings, but no bytes, or bytes, but no strings. -/
def OneEncoding (utf8 : Bool) : PyVal → Prop
  | str _ => utf8 = true
  | bytes _ => utf8 = false
  | list items => OneEncodingAll utf8 items
  | tuple items => OneEncodingAll utf8 items
  | dict items => OneEncodingFields utf8 items
  | _ => True
/-- Every item of a list or tuple. -/
def OneEncodingAll (utf8 : Bool) : List PyVal → Prop
  | [] => True
  | x :: xs => x.OneEncoding utf8 ∧ OneEncodingAll utf8 xs
/-- Every item of a dict. -/
def OneEncodingFields (utf8 : Bool) : List (String × PyVal) → Prop
  | [] => True
  | (_, x) :: xs => x.OneEncoding utf8 ∧ OneEncodingFields utf8 xs
end

mutual
/-- The lengths of tuples are in the list, and a tuple inside another one, at any depth, is not
longer than that. `bound` is the length of the enclosing tuples. -/
def TupleLengths (lengths : List Nat) (bound : Option Nat) : PyVal → Prop
  | list items => TupleLengthsAll lengths bound items
  | tuple items => items.length ∈ lengths ∧ (∀ b, bound = some b → items.length ≤ b) ∧
      TupleLengthsAll lengths (some items.length) items
  | dict items => TupleLengthsFields lengths bound items
  | _ => True
/-- Every item of a list or tuple. -/
def TupleLengthsAll (lengths : List Nat) (bound : Option Nat) : List PyVal → Prop
  | [] => True
  | x :: xs => x.TupleLengths lengths bound ∧ TupleLengthsAll lengths bound xs
/-- Every item of a dict. -/
def TupleLengthsFields (lengths : List Nat) (bound : Option Nat) : List (String × PyVal) → Prop
  | [] => True
  | (_, x) :: xs => x.TupleLengths lengths bound ∧ TupleLengthsFields lengths bound xs
end

end PyVal
end Spec
end Awk
