import Verif.Model.Merge
/-
Model of `ArrayBuilder` and its node classes (src/libawkward/builder).

A builder node is an object that is changed in place, or replaced by the object that a command
returns. Here a command takes a node to the new node, and the caller keeps the new one. The code
ignores the returned pointer in two kinds of places. In the first, the node is active (in the middle
of a list, tuple or record); an active node always returns itself, so that makes no difference. The
second is a node inside a union, see `inPlace`.

A command that raises an exception is an error of the model, without a new state. The code leaves its
state unchanged in that case, except for the loop at the end of a tuple or record (`fillNulls`), which
may have filled some of the fields with missing values.

Simplifications, common to this file:
* the commands `datetime`, `timedelta` and `append` (of elements of existing arrays) and their node
  classes are not modelled;
* names of records are compared as strings (`beginrecord_check`), except for the null pointer of
  `beginrecord()`; field names are compared as strings (`field_check`); the variants that compare
  pointers (`beginrecord_fast` with a name, `field_fast`) are not modelled;
* the buffers are lists here; how they grow is the subject of Model/GrowableBuffer.lean. The only
  place where the allocated size matters is `Complex128Builder::fromint64`.
-/

namespace Awk
open R

/-- The commands of include/awkward/builder/ArrayBuilder.h. In `str`, `utf8` distinguishes `string`
from `bytestring`. -/
inductive Op where
  | null
  | bool (x : Bool)
  | int (x : Int)
  | real (x : Rat)
  | complex (re im : Rat)
  | str (utf8 : Bool) (codes : List Nat)
  | beginList
  | endList
  | beginTuple (numfields : Nat)
  | index (i : Int)
  | endTuple
  | beginRecord (name : Option String)
  | field (key : String)
  | endRecord
deriving Repr, DecidableEq

namespace Op

/-- The commands that add one value and are done: `boolean`, `integer`, `real`, `complex`,
`string`. -/
def isData : Op → Bool
  | bool _ | int _ | real _ | complex .. | str .. => true
  | _ => false

/-- The commands that begin a list, tuple or record. -/
def isBegin : Op → Bool
  | beginList | beginTuple _ | beginRecord _ => true
  | _ => false

/-- The commands that end a list, tuple or record. -/
def isEnd : Op → Bool
  | endList | endTuple | endRecord => true
  | _ => false

end Op

/-- The node classes of include/awkward/builder/*.h, with their members. `next` is `nextindex_`,
`tryFrom` is `nexttotry_`; `length` is -1 before the first `begintuple` or `beginrecord`. The name of
a record is `none` if `nameptr_` is null. -/
inductive Builder where
  | unknown (nullcount : Nat)
  | bool (xs : List Bool)
  | int (xs : List Int)
  | float (xs : List Rat)
  | complex (xs : List (Rat × Rat))
  | str (utf8 : Bool) (offsets : List Nat) (content : List Nat)
  | list (offsets : List Int) (content : Builder) (begun : Bool)
  | tuple (contents : List Builder) (length : Int) (begun : Bool) (next : Int)
  | record (contents : List Builder) (keys : List String) (name : Option String) (length : Int)
      (begun : Bool) (next : Int) (tryFrom : Nat)
  | option (index : List Int) (content : Builder)
  | union (tags index : List Int) (contents : List Builder) (current : Int)
deriving Repr

namespace Builder

/-- `length()` of each class: UnknownBuilder.cpp:43-46, BoolBuilder.cpp:31-34, Int64Builder.cpp:38-41,
Float64Builder.cpp:51-54, Complex128Builder.cpp:58-61, StringBuilder.cpp:48-51, ListBuilder.cpp:43-46,
TupleBuilder.cpp:51-54, RecordBuilder.cpp:76-79, OptionBuilder.cpp:50-53, UnionBuilder.cpp:56-59. -/
def length : Builder → Int
  | unknown n => n
  | bool xs => xs.length
  | int xs => xs.length
  | float xs => xs.length
  | complex xs => xs.length
  | str _ offsets _ => (offsets.length : Int) - 1
  | list offsets _ _ => (offsets.length : Int) - 1
  | tuple _ length _ _ => length
  | record _ _ _ length _ _ _ => length
  | option index _ => index.length
  | union tags _ _ _ => tags.length

/-- `active()` of each class: ListBuilder.cpp:64-67, TupleBuilder.cpp:85-88,
RecordBuilder.cpp:123-126, OptionBuilder.cpp:70-73, UnionBuilder.cpp:85-88; false for the others. -/
def active : Builder → Bool
  | list _ _ begun => begun
  | tuple _ _ begun _ => begun
  | record _ _ _ _ begun _ _ => begun
  | option _ c => c.active
  | union _ _ _ current => decide (current ≠ -1)
  | _ => false

/-- A new node of the class for the command (`fromempty` of each class), after the command. -/
def start : Op → Option Builder
  | .bool x => some (bool [x])
  | .int x => some (int [x])
  | .real x => some (float [x])
  | .complex re im => some (complex [(re, im)])
  | .str utf8 codes => some (str utf8 [0, codes.length] codes)
  | .beginList => some (list [0] (unknown 0) true)
  | .beginTuple n => some (tuple (List.replicate n (unknown 0)) 0 true (-1))
  | .beginRecord name => some (record [] [] name 0 true (-1) 0)
  | _ => none

/-- GrowableBuffer.cpp `arange`. -/
def arange (n : Nat) : List Int := (List.range n).map (fun (i : Nat) => (i : Int))

/-- OptionBuilder.cpp:29-37 `fromvalids`, followed by `null`. A negative length (of a cleared
tuple or record) makes a buffer of negative length. -/
def withNull (b : Builder) : R Builder :=
  if b.length < 0 then ub else ok (option (arange b.length.toNat ++ [-1]) b)

/-- UnionBuilder.cpp:27-39 `fromsingle`, followed by a command that the single alternative does not
take, so that a new node is added for it. -/
def withOther (b : Builder) (op : Op) : R Builder :=
  match start op with
  | none => err "called without a corresponding begin at the same level before it"
  | some s =>
    if b.length < 0 then ub
    else if op.isData then
      ok (union (List.replicate b.length.toNat 0 ++ [1]) (arange b.length.toNat ++ [0]) [b, s] (-1))
    else ok (union (List.replicate b.length.toNat 0) (arange b.length.toNat) [b, s] 1)

/-- The conversion to `int8_t`. -/
def wrap8 (n : Nat) : Int := (n : Int).bmod 256

/-- RecordBuilder.cpp:413-414 and UnionBuilder.cpp:456-458: whether a record builder with the name takes a record. -/
def nameMatches (stored : Option String) (name : Option String) : Bool :=
  match name with
  | none => stored.isNone
  | some s => decide (stored.getD "" = s)

/-- The node takes the command as its own class, in the search of UnionBuilder (UnionBuilder.cpp:
103-128 for `boolean`, and the corresponding lines of the other commands). -/
def takes (op : Op) : Builder → Bool
  | bool _ => match op with | .bool _ => true | _ => false
  | int _ => match op with | .int _ => true | _ => false
  | float _ => match op with | .real _ => true | _ => false
  | complex _ => match op with | .complex .. => true | _ => false
  | str utf8 _ _ => match op with | .str utf8' _ => utf8 == utf8' | _ => false
  | list .. => match op with | .beginList => true | _ => false
  | tuple cs length _ _ => match op with
    | .beginTuple n => decide (length = -1 ∨ cs.length = n) | _ => false
  | record _ _ stored length _ _ _ => match op with
    | .beginRecord name => decide (length = -1) || nameMatches stored name | _ => false
  | _ => false

/-- The node is an Int64Builder. -/
def isInt : Builder → Bool
  | int _ => true
  | _ => false

/-- The node is a Float64Builder. -/
def isFloat : Builder → Bool
  | float _ => true
  | _ => false

/-- The search of UnionBuilder for the alternative that takes the command. For `real`, the next
best is an Int64Builder, which is converted (UnionBuilder.cpp:157-198); for `complex`, a
Float64Builder and then an Int64Builder (UnionBuilder.cpp:200-257). -/
def findTaker (op : Op) (cs : List Builder) : Option Nat :=
  match cs.findIdx? (takes op) with
  | some i => some i
  | none => match op with
    | .real _ => cs.findIdx? isInt
    | .complex .. =>
      match cs.findIdx? isFloat with
      | some i => some i
      | none => cs.findIdx? isInt
    | _ => none

/-- RecordBuilder.cpp:506-520: the search for a field, which begins at `nexttotry_` and goes around
to the beginning. -/
def findKey (keys : List String) (start : Nat) (key : String) : Option Nat :=
  match (keys.drop start).idxOf? key with
  | some j => some (start + j)
  | none => (keys.take start).idxOf? key

/-- `contents_[i].get()->active()`. -/
def activeAt (cs : List Builder) (i : Int) : R Bool := rd cs i >>= fun c => ok c.active

/-- `nextindex_ == -1 || !contents_[nextindex_].get()->active()`. -/
def idleAt (cs : List Builder) (next : Int) : R Bool :=
  if next = -1 then ok true else activeAt cs next >>= fun a => ok (!a)

/-- What a union keeps of the alternative `c` to which it has given a command, if the alternative
returned `c'`. The union ignores the returned pointer (UnionBuilder.cpp:410, 470). The one case where
it matters is a tuple builder that has been cleared: it adds contents to those that it still has, and
returns a union when the number is not right. -/
def inPlace (op : Op) (c c' : Builder) : Builder :=
  match c, op with
  | tuple (d :: ds) (-1) _ next, .beginTuple n =>
    tuple ((d :: ds) ++ List.replicate n (unknown 0)) 0 false next
  | _, _ => c'

/-- The exception for a command without a list, tuple or record that it applies to. -/
def notOpen : R Builder := err "called without a corresponding begin at the same level before it"

/-- A command that nothing has been opened for. -/
def isClosing (op : Op) : Bool :=
  match op with
  | .endList | .index _ | .endTuple | .field _ | .endRecord => true
  | _ => false

mutual
/-- The commands of each class: UnknownBuilder.cpp:80-219, BoolBuilder.cpp:62-171, Int64Builder.cpp:70-179,
Float64Builder.cpp:82-190, Complex128Builder.cpp:89-194, StringBuilder.cpp:104-223,
ListBuilder.cpp:69-277, TupleBuilder.cpp:90-448, RecordBuilder.cpp:128-570, OptionBuilder.cpp:75-285,
UnionBuilder.cpp:90-508. `cap n` is the allocated size of an Int64Builder with `n` items. -/
def step (cap : Nat → Nat) : Builder → Op → R Builder
  | unknown n, op =>
    match op with
    | .null => ok (unknown (n + 1))
    | op => match start op with
      | none => notOpen
      | some s =>
        if n = 0 then ok s
        else ok (option (List.replicate n (-1) ++ if op.isData then [0] else []) s)
  | bool xs, op =>
    match op with
    | .null => withNull (bool xs)
    | .bool x => ok (bool (xs ++ [x]))
    | op => withOther (bool xs) op
  | int xs, op =>
    match op with
    | .null => withNull (int xs)
    | .int x => ok (int (xs ++ [x]))
    | .real x => ok (float (xs.map (fun (i : Int) => (i : Rat)) ++ [x]))
    | .complex re im =>
      -- Complex128Builder.cpp:21-34: the loop runs to `2*old.length()`
      if 2 * xs.length ≤ cap xs.length then
        ok (complex (xs.map (fun (i : Int) => ((i : Rat), 0)) ++ [(re, im)]))
      else ub
    | op => withOther (int xs) op
  | float xs, op =>
    match op with
    | .null => withNull (float xs)
    | .int x => ok (float (xs ++ [(x : Rat)]))
    | .real x => ok (float (xs ++ [x]))
    | .complex re im => ok (complex (xs.map (fun q => (q, 0)) ++ [(re, im)]))
    | op => withOther (float xs) op
  | complex xs, op =>
    match op with
    | .null => withNull (complex xs)
    | .int x => ok (complex (xs ++ [((x : Rat), 0)]))
    | .real x => ok (complex (xs ++ [(x, 0)]))
    | .complex re im => ok (complex (xs ++ [(re, im)]))
    -- Complex128Builder.cpp:191-194
    | .endRecord => ok (complex xs)
    | op => withOther (complex xs) op
  | str utf8 offsets content, op =>
    match op with
    | .null => withNull (str utf8 offsets content)
    -- the encoding of the new string is not looked at
    | .str _ codes => ok (str utf8 (offsets ++ [(content ++ codes).length]) (content ++ codes))
    | op => withOther (str utf8 offsets content) op
  | list offsets c begun, op =>
    if begun = false then
      match op with
      | .null => withNull (list offsets c begun)
      | .beginList => ok (list offsets c true)
      | op => withOther (list offsets c begun) op
    else if op = .endList ∧ c.active = false then
      ok (list (offsets ++ [c.length]) c false)
    else step cap c op >>= fun c => ok (list offsets c begun)
  | tuple cs length begun next, op =>
    match op with
    | .beginTuple n =>
      let cs' := if length = -1 then cs ++ List.replicate n (unknown 0) else cs
      let length' := if length = -1 then 0 else length
      if begun = false ∧ n = cs'.length then ok (tuple cs' length' true (-1))
      else if begun = false then withOther (tuple cs' length' begun next) (.beginTuple n)
      else if next = -1 then err "called 'begin_tuple' immediately after 'begin_tuple'"
      else stepNth cap cs next (.beginTuple n) >>= fun cs => ok (tuple cs length begun next)
    | op =>
      if begun = false then
        match op with
        | .null => withNull (tuple cs length begun next)
        | op => withOther (tuple cs length begun next) op
      else match op with
      | .index i =>
        if i ≥ cs.length then err "'index' is out of bounds for a tuple with number of fields"
        else idleAt cs next >>= fun idle =>
          if idle then ok (tuple cs length begun i)
          else stepNth cap cs next op >>= fun cs => ok (tuple cs length begun next)
      | .endTuple =>
        idleAt cs next >>= fun idle =>
        if idle then fillNulls cap length cs >>= fun cs => ok (tuple cs (length + 1) false next)
        else stepNth cap cs next op >>= fun cs => ok (tuple cs length begun next)
      | op =>
        if next = -1 then err "called immediately after 'begin_tuple'"
        else stepNth cap cs next op >>= fun cs => ok (tuple cs length begun next)
  | record cs keys name length begun next tryFrom, op =>
    match op with
    | .beginRecord name' =>
      let stored := if length = -1 then name' else name
      let length' := if length = -1 then 0 else length
      if begun = false ∧ nameMatches stored name' = true then
        ok (record cs keys stored length' true (-1) 0)
      else if begun = false then
        withOther (record cs keys stored length' begun next tryFrom) (.beginRecord name')
      else if next = -1 then err "called 'begin_record' immediately after 'begin_record'"
      else stepNth cap cs next (.beginRecord name') >>= fun cs =>
        ok (record cs keys name length begun next tryFrom)
    | op =>
      if begun = false then
        match op with
        | .null => withNull (record cs keys name length begun next tryFrom)
        | op => withOther (record cs keys name length begun next tryFrom) op
      else match op with
      | .field key =>
        idleAt cs next >>= fun idle =>
        if idle then
          match findKey keys tryFrom key with
          | some i => ok (record cs keys name length begun i (i + 1))
          | none =>
            let fresh := if length = 0 then unknown 0
              else option (List.replicate length.toNat (-1)) (unknown 0)
            ok (record (cs ++ [fresh]) (keys ++ [key]) name length begun keys.length 0)
        else stepNth cap cs next op >>= fun cs =>
          ok (record cs keys name length begun next tryFrom)
      | .endRecord =>
        idleAt cs next >>= fun idle =>
        if idle then
          fillNulls cap length cs >>= fun cs =>
          ok (record cs keys name (length + 1) false next tryFrom)
        else stepNth cap cs next op >>= fun cs =>
          ok (record cs keys name length begun next tryFrom)
      | op =>
        if next = -1 then err "called immediately after 'begin_record'"
        else stepNth cap cs next op >>= fun cs =>
          ok (record cs keys name length begun next tryFrom)
  | option index c, op =>
    if c.active = false then
      match op with
      | .null => ok (option (index ++ [-1]) c)
      | op =>
        if isClosing op then notOpen
        else step cap c op >>= fun c' =>
          ok (option (if op.isData then index ++ [c.length] else index) c')
    else
      step cap c op >>= fun c' =>
      ok (option (if op.isEnd ∧ c'.length ≠ c.length then index ++ [c.length] else index) c')
  | union tags index cs current, op =>
    if current = -1 then
      match op with
      | .null => withNull (union tags index cs current)
      | op =>
        match start op with
        | none => notOpen
        | some s =>
          match findTaker op cs with
          | some i =>
            rd cs (i : Int) >>= fun c =>
            -- the position of an alternative that is converted is an `int8_t`
            if takes op c = false ∧ i > 127 then ub
            else
              stepNth cap cs i op >>= fun cs' =>
              rd cs' (i : Int) >>= fun c' =>
              if op.isData then ok (union (tags ++ [wrap8 i]) (index ++ [c.length]) cs' (-1))
              else ok (union tags index (cs'.set i (inPlace op c c')) (wrap8 i))
          | none =>
            if op.isData then
              ok (union (tags ++ [wrap8 cs.length]) (index ++ [0]) (cs ++ [s]) (-1))
            else ok (union tags index (cs ++ [s]) (wrap8 cs.length))
    else
      rd cs current >>= fun c =>
      stepNth cap cs current op >>= fun cs' =>
      rd cs' current >>= fun c' =>
      if op.isEnd ∧ c'.length ≠ c.length then
        ok (union (tags ++ [current]) (index ++ [c.length]) cs' (-1))
      else ok (union tags index cs' current)
/-- A command of the `i`-th content. -/
def stepNth (cap : Nat → Nat) : List Builder → Int → Op → R (List Builder)
  | [], _, _ => ub
  | c :: cs, i, op =>
    if i = 0 then step cap c op >>= fun c => ok (c :: cs)
    else stepNth cap cs (i - 1) op >>= fun cs => ok (c :: cs)
/-- TupleBuilder.cpp:369-379 and RecordBuilder.cpp:553-562: the loop that fills the fields that have
been left out. -/
def fillNulls (cap : Nat → Nat) (length : Int) : List Builder → R (List Builder)
  | [] => ok []
  | c :: cs =>
    (if c.length = length then step cap c .null else ok c) >>= fun c =>
    if c.length ≠ length + 1 then err "field filled more than once"
    else fillNulls cap length cs >>= fun cs => ok (c :: cs)
end

/-- A sequence of commands, ArrayBuilder.cpp:76-211. The first error ends it. -/
def run (cap : Nat → Nat) : Builder → List Op → R Builder
  | b, [] => ok b
  | b, op :: ops => step cap b op >>= fun b => run cap b ops

mutual
/-- `clear()` of each class: UnknownBuilder.cpp:48-51, Complex128Builder.cpp:63-66 and the other
leaves, StringBuilder.cpp:53-58, ListBuilder.cpp:48-53, TupleBuilder.cpp:56-64,
RecordBuilder.cpp:81-95, OptionBuilder.cpp:55-59, UnionBuilder.cpp:61-68. -/
def clear : Builder → Builder
  | unknown _ => unknown 0
  | bool _ => bool []
  | int _ => int []
  | float _ => float []
  | complex _ => complex []
  | str utf8 _ _ => str utf8 [0] []
  | list _ c begun => list [0] (clear c) begun
  | tuple cs _ _ _ => tuple (clearAll cs) (-1) false (-1)
  | record cs _ _ _ _ _ _ => record (clearAll cs) [] none (-1) false (-1) 0
  | option _ c => option [] (clear c)
  | union _ _ cs current => union [] [] (clearAll cs) current
/-- The loop over the contents. -/
def clearAll : List Builder → List Builder
  | [] => []
  | c :: cs => clear c :: clearAll cs
end

/-- The items of a NumpyArray of characters or bytes. -/
def codeAtoms (codes : List Nat) : List Atom := codes.map (fun (n : Nat) => .int n)

/-- The offsets as the library keeps them. -/
def ints (xs : List Nat) : List Int := xs.map (fun (n : Nat) => (n : Int))

mutual
/-- `snapshot()` of each class: UnknownBuilder.cpp:53-73, BoolBuilder.cpp:41-55, Int64Builder.cpp:48-62,
Float64Builder.cpp:61-75, Complex128Builder.cpp:68-82, StringBuilder.cpp:60-97, ListBuilder.cpp:55-62,
TupleBuilder.cpp:66-83, RecordBuilder.cpp:97-121, OptionBuilder.cpp:61-68, UnionBuilder.cpp:70-83.
`same` is as in `simplifyUnion`. -/
def snapshot (same : Content → Content → Bool) : Builder → R Content
  | unknown n =>
    if n = 0 then ok (.empty {})
    else ok (.indexedOption {} (List.replicate n (-1)) (.empty {}))
  | bool xs => ok (.numpy {} .bool (xs.map .bool))
  | int xs => ok (.numpy {} .int64 (xs.map .int))
  | float xs => ok (.numpy {} .float64 (xs.map .real))
  | complex xs => ok (.numpy {} .complex128 (xs.map (fun z => .complex z.1 z.2)))
  | str utf8 offsets content =>
    ok (.listOffset { arr := if utf8 then .string else .bytestring } (ints offsets)
      (.numpy { arr := if utf8 then .char else .byte } .uint8 (codeAtoms content)))
  | list offsets c _ => snapshot same c >>= fun c => ok (.listOffset {} offsets c)
  | tuple cs length _ _ =>
    if length = -1 then ok (.empty {})
    else snapshotAll same cs >>= fun cs => ok (.record {} none cs length.toNat)
  | record cs keys name length _ _ _ =>
    if length = -1 then ok (.empty {})
    else if keys.length < cs.length then ub
    else snapshotAll same cs >>= fun cs' =>
      ok (.record { recName := name } (some (keys.take cs.length)) cs' length.toNat)
  | option index c => snapshot same c >>= fun c => Content.indexedSimplify true {} index c
  | union tags index cs _ =>
    snapshotAll same cs >>= fun cs => Content.simplifyUnion same true false {} tags index cs
/-- The loop over the contents. -/
def snapshotAll (same : Content → Content → Bool) : List Builder → R (List Content)
  | [] => ok []
  | c :: cs => snapshot same c >>= fun c => snapshotAll same cs >>= fun cs => ok (c :: cs)
end

end Builder
end Awk
