import Verif.Model.Buffers
import Verif.Model.Getitem
/-
Lazy arrays: VirtualArray, its generators and its caches (src/libawkward/array/VirtualArray.cpp,
src/libawkward/virtual/ArrayGenerator.cpp, src/libawkward/virtual/ArrayCache.cpp,
src/python/virtual.cpp).

Simplifications:
* an array is either lazy as a whole or not at all: the arrays that generators give have no lazy
  parts, and arrays with lazy parts are not modelled;
* a generator gives the same array each time it is run (or raises each time);
* the cache is a mapping that may drop entries whenever it is used; the mapping itself is never
  garbage-collected while the array is in use;
* the parameters that a lazy array carries itself, its depths and the Ellipsis are left out;
* form keys are left out (every form has an empty one): `generate_and_check` does not compare them;
* the widths of indexes are not part of a `Content`: every index is 64 bits wide, every mask and
  every array of tags 8 bits.
-/

namespace Awk
open R

namespace Content

mutual
/-- `form(true)` of each class. -/
def form : Content → Form
  | empty p => .empty p ""
  | numpy p dt _ => .numpy p dt ""
  | regular p c size _ => .regular p c.form size ""
  | listArray p _ _ c => .listArray p .i64 .i64 c.form ""
  | listOffset p _ c => .listOffset p .i64 c.form ""
  | indexed p _ c => .indexed p .i64 c.form ""
  | indexedOption p _ c => .indexedOption p .i64 c.form ""
  | byteMasked p _ vw c => .byteMasked p .i8 vw c.form ""
  | bitMasked p _ vw _ lsb c => .bitMasked p .u8 vw lsb c.form ""
  | unmasked p c => .unmasked p c.form ""
  | record p keys cs _ => .record p keys (formAll cs) ""
  | union p _ _ cs => .union p .i8 .i64 (formAll cs) ""
/-- The forms of the contents of a record array or a union. -/
def formAll : List Content → List Form
  | [] => []
  | c :: cs => c.form :: formAll cs
end

/-- `Content::getitem` (Content.cpp:1369-1389) with a `SliceField` or a `SliceFields`, which
`Content::getitem_next` hands to `getitem_field` and `getitem_fields` (Content.cpp:1520-1540) of the
RegularArray around the array. -/
def getitemSel (same : Content → Content → Bool) (s : FieldSel) (c : Content) : R Item :=
  getitemFields same s ok c.wrapped >>= fun out =>
  if out.len = 0 then getitemNothing out else out.getitemAtNowrap 0

end Content

/-- An array, not a single element. -/
def Item.asArray : Item → R Content
  | .array c => ok c
  | _ => err "not an array"

namespace Form

/-- Content.cpp:794-797 and BitMaskedArray.cpp:218-227 `getitem_range`. -/
def getitemRange : Form → Form
  | .bitMasked p _ vw _ c _ => .byteMasked p .i8 vw c.getitemRange ""
  | f => f

/-- `simplify_optiontype`: IndexedArray.cpp:245-295 and 491-541, ByteMaskedArray.cpp:231-248,
BitMaskedArray.cpp:253-270, UnmaskedArray.cpp:200-212. -/
def simplifyOption : Form → Form
  | .indexed p a c k => match c with
    | .indexed _ _ d _ => .indexed p .i64 d k
    | .indexedOption _ _ d _ | .byteMasked _ _ _ d _ | .bitMasked _ _ _ _ d _ | .unmasked _ d _ =>
      .indexedOption p .i64 d k
    | c => .indexed p a c k
  | .indexedOption p a c k => match c with
    | .indexed _ _ d _ | .indexedOption _ _ d _ | .byteMasked _ _ _ d _ | .bitMasked _ _ _ _ d _
    | .unmasked _ d _ => .indexedOption p .i64 d k
    | c => .indexedOption p a c k
  | .byteMasked p a vw c k => match c with
    | .indexed _ _ d _ | .indexedOption _ _ d _ | .byteMasked _ _ _ d _ | .bitMasked _ _ _ _ d _
    | .unmasked _ d _ => .indexedOption p .i64 d k
    | c => .byteMasked p a vw c k
  | .bitMasked p a vw lsb c k => match c with
    | .indexed _ _ d _ | .indexedOption _ _ d _ | .byteMasked _ _ _ d _ | .bitMasked _ _ _ _ d _
    | .unmasked _ d _ => .indexedOption p .i64 d k
    | c => .bitMasked p a vw lsb c k
  | .unmasked p c k => match c with
    | .indexed .. | .indexedOption .. | .byteMasked .. | .bitMasked .. | .unmasked .. => c
    | c => .unmasked p c k
  | f => f

/-- `getitem_field(key)` and `getitem_fields(keys)` of each class: EmptyArray.cpp:160-171,
NumpyArray.cpp:291-302, RegularArray.cpp:214-232, ListArray.cpp:238-258, ListOffsetArray.cpp:227-245,
IndexedArray.cpp:225-243 and 471-489, ByteMaskedArray.cpp:209-229, BitMaskedArray.cpp:229-251,
UnmaskedArray.cpp:182-198, RecordArray.cpp:331-354, UnionArray.cpp:326-340. -/
def getitemFields (s : FieldSel) : Form → R Form
  | .empty .. => err "data might not be records"
  | .numpy .. => err "data are not records"
  | .regular _ c size _ => getitemFields s c >>= fun c' => ok (.regular {} c' size "")
  | .listArray _ a b c _ => getitemFields s c >>= fun c' => ok (.listArray {} a b c' "")
  | .listOffset _ a c _ => getitemFields s c >>= fun c' => ok (.listOffset {} a c' "")
  | .indexed _ a c _ => getitemFields s c >>= fun c' => ok (simplifyOption (.indexed {} a c' ""))
  | .indexedOption _ a c _ => getitemFields s c >>= fun c' =>
    ok (simplifyOption (.indexedOption {} a c' ""))
  | .byteMasked _ a vw c _ => getitemFields s c >>= fun c' =>
    ok (simplifyOption (.byteMasked {} a vw c' ""))
  | .bitMasked _ a vw lsb c _ => getitemFields s c >>= fun c' =>
    ok (simplifyOption (.bitMasked {} a vw lsb c' ""))
  | .unmasked _ c _ => getitemFields s c >>= fun c' => ok (simplifyOption (.unmasked {} c' ""))
  | .record _ keys cs _ => match s with
    | .one key => fieldIndex keys key cs.length >>= fun i => rd cs i
    | .many names => mapR (fun key => fieldIndex keys key cs.length >>= fun i => rd cs i) names
      >>= fun cs' => ok (.record {} (keys.map (fun _ => names)) cs' "")
  | .union .. => err "UnionForm breaks the one-to-one relationship between fieldindexes and keys"

end Form

/-! ### Lazy arrays -/

/-- The slice of a SliceGenerator: one item of a slice, or field names. -/
inductive Cut where
  | item (it : SliceItem)
  | fields (s : FieldSel)

/-- VirtualArray (include/awkward/array/VirtualArray.h) with its generator
(include/awkward/virtual/ArrayGenerator.h). `result` is what the function of the user gives when
it is called; `cache` names the mapping that the array uses, if any. The arrays that slicing makes
have no cache (VirtualArray.cpp:610, 642, …). -/
inductive Virtual where
  | user (form : Option Form) (length : Option Nat) (result : R Content) (cache : Option Nat)
      (key : String)
  | slice (form : Option Form) (length : Option Nat) (source : Virtual) (cut : Cut)

/-- `generator_.length()`, when it is not negative. -/
def Virtual.length : Virtual → Option Nat
  | .user _ length _ _ _ => length
  | .slice _ length _ _ => length

/-- `form_` of the generator. -/
def Virtual.form : Virtual → Option Form
  | .user form _ _ _ _ => form
  | .slice form _ _ _ => form

/-- The contents of the caches, and the number of times they were used so far. -/
structure World where
  store : Nat → String → Option Content
  clock : Nat

/-- What happens outside of the modelled code: the entries that the caches drop before each use
(number, cache, key), and whether the form of a generator that has none was already inferred
by an earlier run of it, at each time it is asked for (include/awkward/virtual/ArrayGenerator.h
`inferred_form_`; letting this be arbitrary covers every history). `same` is as in
`simplifyUnion`. -/
structure Env where
  drops : Nat → Nat → String → Bool
  inferred : Nat → Bool
  same : Content → Content → Bool

/-- A computation that uses the caches. What it did to them stays when it raises. -/
abbrev Act (α : Type) := World → R α × World

namespace Act

/-- A computation that does not use the caches. -/
def lift (r : R α) : Act α := fun w => (r, w)

/-- One computation after the other, unless the first raises. -/
def andThen (m : Act α) (f : α → Act β) : Act β := fun w =>
  match m w with
  | (ok a, w') => f a w'
  | (err e, w') => (err e, w')
  | (ub, w') => (ub, w')

end Act

/-- The cache before it is used for the next time. -/
def World.next (e : Env) (w : World) : World :=
  ⟨fun c k => if e.drops w.clock c k then none else w.store c k, w.clock + 1⟩

/-- src/python/virtual.cpp `PyArrayCache::get`: nothing for a missing key (and without a cache). -/
def cacheGet (e : Env) (cache : Option Nat) (key : String) : Act (Option Content) := fun w =>
  match cache with
  | none => (ok none, w)
  | some c => (ok ((w.next e).store c key), w.next e)

/-- src/python/virtual.cpp `PyArrayCache::set`. -/
def cacheSet (e : Env) (cache : Option Nat) (key : String) (x : Content) : Act Unit := fun w =>
  match cache with
  | none => (ok (), w)
  | some c => (ok (), ⟨fun c' k => if c' = c ∧ k = key then some x else (w.next e).store c' k,
      (w.next e).clock⟩)

/-- ArrayGenerator.cpp:30-51 `generate_and_check`: the checks. -/
def checkGenerated (form : Option Form) (length : Option Nat) (out : Content) : R Content :=
  match length with
  | some n => if n > out.len then err "generated array does not have sufficient length" else rest
  | none => rest
where
  /-- The check of the form. -/
  rest : R Content :=
    match form with
    | some f => if f.equal out.form = false then
        err "generated array does not conform to expected form" else ok out
    | none => ok out

/-- ArrayGenerator.cpp:70-93 `SliceGenerator::generate`, for the array below. -/
def Cut.generate (same : Content → Content → Bool) (a : Content) : Cut → R Content
  | .item it => match it.constructed with
    | .range start stop 1 => a.getitemRange (sliceArg start) (sliceArg stop)
    | it => a.getitem [it] >>= Item.asArray
  | .fields s => a.getitemSel same s >>= Item.asArray

namespace Virtual

/-- VirtualArray.cpp:366-391 `array`, with `generate_and_check` of both kinds of generators. -/
def array (e : Env) : Virtual → Act Content
  | .user form length result cache key =>
    (cacheGet e cache key).andThen fun found =>
    (Act.lift (match found with
      | some c => ok c
      | none => result >>= checkGenerated form length)).andThen fun out =>
    (cacheSet e cache key out).andThen fun _ => Act.lift (ok out)
  | .slice form length source cut =>
    (array e source).andThen fun a =>
    Act.lift (cut.generate e.same a >>= checkGenerated form length)

/-- VirtualArray.cpp:346-352 `peek_array`. -/
def peek (e : Env) : Virtual → Act (Option Content)
  | .user _ _ _ cache key => cacheGet e cache key
  | .slice .. => Act.lift (ok none)

/-- What the generator gives if it is run, without any cache. -/
def generated (same : Content → Content → Bool) : Virtual → R Content
  | .user form length result _ _ => result >>= checkGenerated form length
  | .slice form length source cut => generated same source >>= fun a =>
    cut.generate same a >>= checkGenerated form length

/-- include/awkward/virtual/ArrayGenerator.h `form()`: `form_`, or the form that was inferred when
the generator was run before. -/
def knownForm (e : Env) (v : Virtual) : Act (Option Form) := fun w =>
  match v.form with
  | some f => (ok (some f), w)
  | none => match v.generated e.same with
    | ok c => (ok (if e.inferred w.clock then some c.form else none), { w with clock := w.clock + 1 })
    | _ => (ok none, w)

/-- VirtualArray.cpp:526-533 `length`. -/
def len (e : Env) (v : Virtual) : Act Nat :=
  match v.length with
  | some n => Act.lift (ok n)
  | none => (v.array e).andThen fun a => Act.lift (ok a.len)

end Virtual

/-- An array that is there, or a lazy array. -/
inductive Out where
  | real (c : Content)
  | lazy (v : Virtual)

namespace Virtual

/-- VirtualArray.cpp:587-620 `getitem_range_nowrap`. -/
def getitemRangeNowrap (e : Env) (start stop : Int) (v : Virtual) : Act Out :=
  (v.peek e).andThen fun found => match found with
  | some a => Act.lift (a.range start stop >>= fun c => ok (.real c))
  | none =>
    if v.length.isSome ∧ start = 0 ∧ stop = (v.length.getD 0 : Nat) then Act.lift (ok (.lazy v))
    else (v.knownForm e).andThen fun form =>
      Act.lift (ok (.lazy (.slice (form.map Form.getitemRange) (some (stop - start).toNat) v
        (.item (.range (some start) (some stop) 1)))))

/-- VirtualArray.cpp:566-585 `getitem_range`. -/
def getitemRange (e : Env) (start stop : Int) (v : Virtual) : Act Out :=
  match v.length with
  | none => (v.array e).andThen fun a =>
    Act.lift (a.getitemRange start stop >>= fun c => ok (.real c))
  | some n => (v.peek e).andThen fun found => match found with
    | some a => Act.lift (a.getitemRange start stop >>= fun c => ok (.real c))
    | none =>
      let r := regularize_rangeslice start stop true (start != kSliceNone) (stop != kSliceNone) n
      v.getitemRangeNowrap e r.1 r.2

/-- VirtualArray.cpp:622-656 `getitem_field(key)` and 664-690 `getitem_fields(keys)`. -/
def getitemFields (e : Env) (s : FieldSel) (v : Virtual) : Act Out :=
  (v.peek e).andThen fun found => match found with
  | some a => Act.lift (a.getitemFields e.same s ok >>= fun c => ok (.real c))
  | none => (v.knownForm e).andThen fun form => match form with
    | none => Act.lift (ok (.lazy (.slice none v.length v (.fields s))))
    | some f => Act.lift (f.getitemFields s >>= fun f' =>
        ok (.lazy (.slice (some f') v.length v (.fields s))))

/-- A lazy slice without a form (VirtualArray.cpp:972-983, 1006-1017, 1020-1031). -/
def lazyItem (it : SliceItem) (length : Nat) (v : Virtual) : Act Out :=
  Act.lift (ok (.lazy (.slice none (some length) v (.item it))))

/-- VirtualArray.cpp:935-1052 `getitem`, with one item. -/
def getitemItem (e : Env) (it : SliceItem) (v : Virtual) : Act Out :=
  (v.peek e).andThen fun found => match found with
  | some a => Act.lift (a.getitem [it] >>= Item.asArray >>= fun c => ok (.real c))
  | none => match it.constructed with
    | .range start stop step =>
      if step = 0 then Act.lift (err "slice step cannot be zero")
      else match v.length with
        | some n =>
          let r := regularize_rangeslice (sliceArg start) (sliceArg stop) (decide (step > 0))
            (sliceArg start != kSliceNone) (sliceArg stop != kSliceNone) n
          v.lazyItem it (regular_nextsize r.1 r.2 step).toNat
        | none => (v.array e).andThen fun a =>
          Act.lift (a.getitem [it] >>= Item.asArray >>= fun c => ok (.real c))
    | .newaxis => v.lazyItem it 1
    | .array shape _ => v.lazyItem it (shape.headD 0)
    | _ => (v.array e).andThen fun a =>
      Act.lift (a.getitem [it] >>= Item.asArray >>= fun c => ok (.real c))

/-- VirtualArray.cpp:542-564 `getitem_at`. -/
def getitemAt (e : Env) (i : Int) (v : Virtual) : Act Item :=
  (if i < 0 then (v.len e).andThen fun n => Act.lift (ok (i + n)) else Act.lift (ok i)).andThen
    fun j : Int => (v.len e).andThen fun n =>
  if ¬ (0 ≤ j ∧ j < n) then Act.lift (err "index out of range")
  else (v.array e).andThen fun a => Act.lift (a.getitemAtNowrap j.toNat)

end Virtual

/-! ### Sequences of operations -/

/-- What a user does to an array: `array[start:stop]`, `array[start:stop:step]`,
`array[[p₀, p₁, …]]`, `array[numpy.newaxis]` (as the only item of a slice), `array["x"]` or
`array[["x", "y"]]` (src/python/content.cpp `getitem`). -/
inductive LazyOp where
  | range (start stop : Option Int)
  | steps (start stop : Option Int) (step : Int)
  | positions (idx : List Int)
  | newaxis
  | fields (s : FieldSel)

/-- The item of a slice, for an operation that is not a plain range and not a projection. -/
def LazyOp.item : LazyOp → SliceItem
  | .steps start stop step => .range start stop step
  | .positions idx => .array [idx.length] idx
  | _ => .newaxis

/-- The operation on an array that is there. -/
def LazyOp.direct (same : Content → Content → Bool) (c : Content) : LazyOp → R Content
  | .range start stop => c.getitemRange (sliceArg start) (sliceArg stop)
  | .fields s => c.getitemFields same s ok
  | op => c.getitem [op.item] >>= Item.asArray

/-- The operation on a lazy array. -/
def LazyOp.onVirtual (e : Env) (v : Virtual) : LazyOp → Act Out
  | .range start stop => v.getitemRange e (sliceArg start) (sliceArg stop)
  | .fields s => v.getitemFields e s
  | op => v.getitemItem e op.item

/-- The operation on either. -/
def LazyOp.on (e : Env) (op : LazyOp) : Out → Act Out
  | .real c => Act.lift (op.direct e.same c >>= fun c' => ok (.real c'))
  | .lazy v => op.onVirtual e v

/-- Several operations, one on the result of the other. -/
def runOps (e : Env) : List LazyOp → Out → Act Out
  | [], out => Act.lift (ok out)
  | op :: ops, out => (op.on e out).andThen fun out' => runOps e ops out'

/-- The array itself. -/
def Out.read (e : Env) : Out → Act Content
  | .real c => Act.lift (ok c)
  | .lazy v => v.array e

/-- `ak.to_list` of the result of the operations on a lazy array. -/
def lazyList (e : Env) (v : Virtual) (ops : List LazyOp) : Act (List Val) :=
  (runOps e ops (.lazy v)).andThen fun out => (out.read e).andThen fun c => Act.lift c.toList

/-- The operations on an array that is there. -/
def directOps (same : Content → Content → Bool) : List LazyOp → Content → R Content
  | [], c => ok c
  | op :: ops, c => op.direct same c >>= fun c' => directOps same ops c'

end Awk
