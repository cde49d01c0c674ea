import Verif.Model.Virtual
/-
The high-level type of an array: `ak.type` (src/awkward/operations/describe.py:78-176), `Form::type`
of each class (src/libawkward/array/*.cpp) and the classes of src/libawkward/type/*.cpp.

Simplifications:
* a NumpyArray has one dimension, so `NumpyForm::type` gives no RegularTypes;
* the parameters are kept in a list instead of a `std::map`; no parameter has the value null;
* lazy arrays and partitioned arrays are left out.
-/

namespace Awk
open R

/-- The members `parameters_` and `typestr_` of `Type` (src/libawkward/type/Type.cpp:11-15). -/
structure TyMeta where
  params : Params := {}
  typestr : String := ""
deriving Repr, DecidableEq

/-- The classes of src/libawkward/type/*.cpp: UnknownType, PrimitiveType, ListType, RegularType,
OptionType, RecordType, UnionType and ArrayType. -/
inductive AkType where
  | unknown (m : TyMeta)
  | prim (m : TyMeta) (dt : DType)
  | list (m : TyMeta) (t : AkType)
  | regular (m : TyMeta) (t : AkType) (size : Nat)
  | option (m : TyMeta) (t : AkType)
  | record (m : TyMeta) (keys : Option (List String)) (ts : List AkType)
  | union (m : TyMeta) (ts : List AkType)
  | array (m : TyMeta) (t : AkType) (length : Nat)
deriving Repr

/-- The value of the parameter `__array__` as text. -/
def ArrKind.name : ArrKind → Option String
  | .none => Option.none
  | .string => some "string"
  | .bytestring => some "bytestring"
  | .char => some "char"
  | .byte => some "byte"
  | .categorical => some "categorical"

namespace Params

/-- `std::map::empty`. -/
def isEmpty (p : Params) : Bool :=
  decide (p.arr = .none) && p.recName.isNone && p.other.isEmpty

/-- Type.cpp:41-48 `setparameter` for a key other than `__array__` and `__record__`. -/
def setOther (p : Params) (key value : String) : Params :=
  { p with other := p.other.filter (fun kv => kv.1 ≠ key) ++ [(key, value)] }

/-- src/libawkward/util.cpp:735-767 `gettypestr`. -/
def gettypestr (p : Params) (typestrs : List (String × String)) : String :=
  match p.recName.bind (fun n => typestrs.lookup n) with
  | some s => s
  | none => ((p.arr.name).bind (fun n => typestrs.lookup n)).getD ""

/-- The parameters and the text of a type that is made for a form with these parameters. -/
def ty (p : Params) (typestrs : List (String × String)) : TyMeta :=
  { params := p, typestr := p.gettypestr typestrs }

end Params

namespace AkType

/-- Type.cpp:17-20 `parameters` and 22-25 `typestr`. -/
def tyMeta : AkType → TyMeta
  | unknown m | prim m _ | list m _ | regular m _ _ | option m _ | record m _ _ | union m _
  | array m _ _ => m

/-- Type.cpp:27-30 `setparameters` and 41-48 `setparameter`, which change the type in place. -/
def setParams (f : Params → Params) : AkType → AkType
  | unknown m => unknown { m with params := f m.params }
  | prim m dt => prim { m with params := f m.params } dt
  | list m t => list { m with params := f m.params } t
  | regular m t n => regular { m with params := f m.params } t n
  | option m t => option { m with params := f m.params } t
  | record m ks ts => record { m with params := f m.params } ks ts
  | union m ts => union { m with params := f m.params } ts
  | array m t n => array { m with params := f m.params } t n

end AkType

/-- The parameter that says that the values are categories. -/
def Params.setCategorical (p : Params) : Params := p.setOther "__categorical__" "true"

/-- IndexedArray.cpp:54-75: what `IndexedForm::type` does to the parameters of the type of its
content. -/
def indexedParams (own inner : Params) : Params :=
  if own.isEmpty then inner
  else if inner.isEmpty then
    if own.arr = .categorical then { own with arr := .none }.setCategorical else own
  else
    let out := own.other.foldl (fun q kv => q.setOther kv.1 kv.2)
      { inner with recName := own.recName.orElse (fun _ => inner.recName) }
    if own.arr = .categorical then out.setCategorical else out

/-- IndexedArray.cpp:314-325: what `IndexedOptionForm::type` does to its own parameters. -/
def optionParams (p : Params) : Params :=
  if p.arr = .categorical then { p with arr := .none }.setCategorical else p

namespace Form

mutual
/-- `Form::type` of each class: EmptyArray.cpp:30-34, NumpyArray.cpp:76-98, RegularArray.cpp:53-59,
ListArray.cpp:62-67, ListOffsetArray.cpp:56-61, IndexedArray.cpp:54-75 and 313-325,
ByteMaskedArray.cpp:60-65, BitMaskedArray.cpp:64-69, UnmaskedArray.cpp:43-48, RecordArray.cpp:98-109,
UnionArray.cpp:62-71. -/
def type (typestrs : List (String × String)) : Form → AkType
  | .empty p _ => .unknown (p.ty typestrs)
  | .numpy p dt _ => .prim (p.ty typestrs) dt
  | .regular p c size _ => .regular (p.ty typestrs) (c.type typestrs) size
  | .listArray p _ _ c _ => .list (p.ty typestrs) (c.type typestrs)
  | .listOffset p _ c _ => .list (p.ty typestrs) (c.type typestrs)
  | .indexed p _ c _ => (c.type typestrs).setParams (indexedParams p)
  | .indexedOption p _ c _ =>
    .option { p.ty typestrs with params := optionParams p } (c.type typestrs)
  | .byteMasked p _ _ c _ => .option (p.ty typestrs) (c.type typestrs)
  | .bitMasked p _ _ _ c _ => .option (p.ty typestrs) (c.type typestrs)
  | .unmasked p c _ => .option (p.ty typestrs) (c.type typestrs)
  | .record p keys cs _ => .record (p.ty typestrs) keys (typeAll typestrs cs)
  | .union p _ _ cs _ => .union (p.ty typestrs) (typeAll typestrs cs)
/-- The loops of RecordArray.cpp:100-103 and UnionArray.cpp:64-67. -/
def typeAll (typestrs : List (String × String)) : List Form → List AkType
  | [] => []
  | c :: cs => c.type typestrs :: typeAll typestrs cs
end

end Form

namespace Content

/-- `type` of each class, e.g. EmptyArray.cpp:221-224: the type of the form. -/
def type (typestrs : List (String × String)) (c : Content) : AkType := c.form.type typestrs

/-- `ak.type(array)`: describe.py:158-159 and `highlevel_type`
(src/awkward/_util.py:1430-1434). -/
def highlevelType (typestrs : List (String × String)) (c : Content) : AkType :=
  .array {} (c.type typestrs) c.len

end Content

end Awk
