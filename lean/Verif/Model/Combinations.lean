import Verif.Model.List

/-!
# Model of `ak.combinations`

The kernels count the combinations of every list, then fill one buffer of positions for every
slot of a combination. Integers are unbounded: an overflow of the number of combinations is not
modelled.
-/

namespace Awk

open R

/-- A `while` loop whose condition reads memory. The fuel bounds the number of passes. -/
def whileR (cond : σ → R Bool) (body : σ → R σ) : Nat → σ → R σ
  | 0, _ => ub
  | fuel + 1, s => cond s >>= fun b => if b then body s >>= whileR cond body fuel else ok s

/-- The buffers of the combination kernels: `tocarry`, `toindex` and `fromindex`. -/
structure CombState where
  tocarry : List (List Int)
  toindex : List Int
  fromindex : List Int

/-- src/cpu-kernels/kernel-utils.cpp:153-162: the slots after `j` are set from slot `j`. -/
def combinations_reset (n : Nat) (replacement : Bool) (j : Nat) (fromindex : List Int) :
    R (List Int) :=
  forN (n - (j + 1)) (fun i fromindex =>
    rd fromindex (j : Int) >>= fun x =>
    wr fromindex ((j + 1 + i : Nat) : Int)
      (if replacement then x else x + (((j + 1 + i : Nat) : Int) - (j : Int)))) fromindex

/-- src/cpu-kernels/kernel-utils.cpp:163-168: one combination is written. -/
def combinations_write (n : Nat) (s : CombState) : R CombState :=
  forN n (fun k s =>
    rd s.tocarry (k : Int) >>= fun buffer => rd s.toindex (k : Int) >>= fun position =>
    rd s.fromindex (k : Int) >>= fun x => wr buffer position x >>= fun buffer =>
    wr s.tocarry (k : Int) buffer >>= fun tocarry =>
    wr s.toindex (k : Int) (position + 1) >>= fun toindex =>
    ok { s with tocarry := tocarry, toindex := toindex }) s

/-- src/cpu-kernels/kernel-utils.cpp:144-181 `awkward_ListArray_combinations_step`. The first
argument is the number of levels of recursion that are left; the fuel of the loop is the number
of passes it can make. -/
def combinations_step (stop : Int) (n : Nat) (replacement : Bool) :
    Nat → Nat → CombState → R CombState
  | 0, _, _ => ub
  | levels + 1, j, s =>
    rd s.fromindex (j : Int) >>= fun first =>
    whileR (fun s : CombState => rd s.fromindex (j : Int) >>= fun x => ok (decide (x < stop)))
      (fun s =>
        combinations_reset n replacement j s.fromindex >>= fun fromindex =>
        (if j + 1 = n then combinations_write n { s with fromindex := fromindex }
        else combinations_step stop n replacement levels (j + 1)
          { s with fromindex := fromindex }) >>= fun s =>
        rd s.fromindex (j : Int) >>= fun x => wr s.fromindex (j : Int) (x + 1) >>= fun fromindex =>
        ok { s with fromindex := fromindex })
      ((stop - first).toNat + 1) s

/-- src/cpu-kernels/awkward_ListArray_combinations.cpp:17-33 and
awkward_RegularArray_combinations.cpp:16-31: `toindex` is cleared, then the combinations of one list
after the other are written. -/
def combinations_kernel (n : Nat) (replacement : Bool) (start stop : Nat → R Int) (length : Nat)
    (s : CombState) : R (List (List Int)) :=
  forN n (fun j toindex => wr toindex (j : Int) 0) s.toindex >>= fun toindex =>
  forN length (fun i s =>
    start i >>= fun start => stop i >>= fun stop =>
    wr s.fromindex 0 start >>= fun fromindex =>
    combinations_step stop n replacement n 0 { s with fromindex := fromindex })
    { s with toindex := toindex } >>= fun s => ok s.tocarry

/-- src/cpu-kernels/awkward_ListArray_combinations_length.cpp:19-39, and the same lines in
Content.cpp:1310-1331 and RegularArray.cpp:1186-1206: the number of combinations of a list of `size`
items. -/
def combinations_count (n : Nat) (replacement : Bool) (size : Int) : R Int :=
  let size := if replacement then size + (n - 1) else size
  if (n : Int) > size then ok 0
  else if (n : Int) = size then ok 1
  else
    let thisn : Int := if (n : Int) * 2 > size then size - n else n
    forN (thisn - 1).toNat (fun i len =>
      let j : Int := i + 2
      ok ((len * (size - j + 1)).tdiv j)) size

/-- src/cpu-kernels/awkward_ListArray_combinations_length.cpp:8-44: the offsets and the total. -/
def ListArray_combinations_length (tooffsets : List Int) (n : Nat) (replacement : Bool)
    (starts stops : List Int) (length : Nat) : R (Int × List Int) :=
  wr tooffsets 0 0 >>= fun tooffsets =>
  forN length (fun i st =>
    rd stops (i : Int) >>= fun stop => rd starts (i : Int) >>= fun start =>
    combinations_count n replacement (stop - start) >>= fun len =>
    rd st.2 (i : Int) >>= fun x => wr st.2 ((i + 1 : Nat) : Int) (x + len) >>= fun tooffsets =>
    ok (st.1 + len, tooffsets)) (0, tooffsets)

/-- src/cpu-kernels/awkward_ListArray_combinations.cpp:8-34. -/
def ListArray_combinations (tocarry : List (List Int)) (toindex fromindex : List Int) (n : Nat)
    (replacement : Bool) (starts stops : List Int) (length : Nat) : R (List (List Int)) :=
  combinations_kernel n replacement (fun i => rd starts (i : Int)) (fun i => rd stops (i : Int))
    length ⟨tocarry, toindex, fromindex⟩

/-- src/cpu-kernels/awkward_RegularArray_combinations.cpp:8-32. -/
def RegularArray_combinations (tocarry : List (List Int)) (toindex fromindex : List Int) (n : Nat)
    (replacement : Bool) (size length : Nat) : R (List (List Int)) :=
  combinations_kernel n replacement (fun i => ok ((size : Int) * i))
    (fun i => ok ((size : Int) * i + size)) length ⟨tocarry, toindex, fromindex⟩

namespace Content

/-- Content.cpp:1305-1367 `combinations_axis0`. -/
def combinationsAxis0 (n : Nat) (replacement : Bool) (keys : Option (List String)) (p : Params)
    (c : Content) : R Content :=
  combinations_count n replacement c.len >>= fun len =>
  RegularArray_combinations (List.replicate n (alloc len)) (alloc n) (alloc n) n replacement
    c.len 1 >>= fun tocarry =>
  ok (recordOfContents p keys 0 (tocarry.map (fun index => indexed {} index c)))

/-- ListOffsetArray.cpp:1610-1668 and ListArray.cpp:1466-1524, the `depth + 1` case of
`combinations`. -/
def listCombinations (n : Nat) (replacement : Bool) (keys : Option (List String)) (p : Params)
    (starts stops : List Int) (length : Nat) (c : Content) : R Content :=
  ListArray_combinations_length (alloc (length + 1)) n replacement starts stops length
    >>= fun to =>
  ListArray_combinations (List.replicate n (alloc to.1)) (alloc n) (alloc n) n replacement
    starts stops length >>= fun tocarry =>
  mapR (fun index => c.carry true index) tocarry >>= fun contents =>
  ok (listOffset {} to.2 (recordOfContents p keys 0 contents))

/-- RegularArray.cpp:1186-1253, the `depth + 1` case of `combinations`. The buffers `toindex` and
`fromindex` have as many entries as a list has items (plus `n - 1` with replacement), not `n`. -/
def regularCombinations (n : Nat) (replacement : Bool) (keys : Option (List String)) (p : Params)
    (size length : Nat) (c : Content) : R Content :=
  combinations_count n replacement size >>= fun len =>
  let buffer : List Int := alloc (if replacement then (size : Int) + (n - 1) else size)
  (if size ≠ 0 then
    RegularArray_combinations (List.replicate n (alloc (len * length))) buffer buffer n replacement
      size length
  else ok (List.replicate n (alloc (len * length)))) >>= fun tocarry =>
  mapR (fun index => c.carry true index) tocarry >>= fun contents =>
  ok (regular {} (recordOfContents p keys 0 contents) len.toNat length)

/-- The pattern of `combinations` on IndexedOptionArray and ByteMaskedArray
(IndexedArray.cpp:2333-2351, ByteMaskedArray.cpp:1253-1272): apply `f` to the non-missing elements,
carried lazily, and put the missing ones back. -/
def throughOptionLazy (f : Content → R Content) (self content : Content) : R Content :=
  self.nextcarryOutindex >>= fun nco =>
  content.carry true nco.2.1 >>= fun next => f next >>= fun out =>
  indexedSimplify true {} nco.2.2 out

/-- Whether the combinations of the characters of a string are asked for (ListOffsetArray.cpp:1603,
ListArray.cpp:1459, RegularArray.cpp:1177). -/
def isStringLike (p : Params) : Bool :=
  match p.arr with
  | .string | .bytestring => true
  | _ => false

/-- `combinations` of each class at a relative axis `a` of at least 1: EmptyArray.cpp:586-598,
NumpyArray.cpp:3375-3405 (one dimension), RegularArray.cpp:1158-1273, ListArray.cpp:1442-1542,
ListOffsetArray.cpp:1585-1685, IndexedArray.cpp:2317-2363, ByteMaskedArray.cpp:1239-1273,
BitMaskedArray.cpp:978, UnmaskedArray.cpp:936-963, RecordArray.cpp:1517-1548,
UnionArray.cpp:2058-2091. -/
def combinationsF (n : Nat) (replacement : Bool) (keys : Option (List String)) (p : Params) :
    Nat → Nat → Content → R Content
  | 0, _, _ => ub
  | f + 1, a, self => match self with
    | empty _ => ok (empty {})
    | numpy _ _ _ => err "'axis' out of range for combinations"
    | regular q c size _ =>
      if a = 1 then
        if isStringLike q then err "ak.combinations does not compute combinations of characters"
        else regularCombinations n replacement keys p size self.len c
      else
        c.range 0 ((self.len * size : Nat) : Int) >>= fun c =>
        combinationsF n replacement keys p f (a - 1) c >>= fun next =>
        ok (regular {} next size self.len)
    | listArray q starts stops c =>
      if a = 1 then
        if isStringLike q then err "ak.combinations does not compute combinations of characters"
        else listCombinations n replacement keys p starts stops starts.length c
      else
        self.listParts >>= fun oc => combinationsF n replacement keys p f (a - 1) oc.2 >>= fun next =>
        ok (listOffset {} oc.1 next)
    | listOffset q offsets c =>
      if a = 1 then
        if isStringLike q then err "ak.combinations does not compute combinations of characters"
        else listCombinations n replacement keys p (makeStarts offsets) (makeStops offsets)
          self.len c
      else
        self.listParts >>= fun oc => combinationsF n replacement keys p f (a - 1) oc.2 >>= fun next =>
        ok (listOffset {} oc.1 next)
    | indexed .. => self.project >>= fun c' => combinationsF n replacement keys p f a c'
    | indexedOption _ _ c => throughOptionLazy (combinationsF n replacement keys p f a) self c
    | byteMasked _ _ _ c => throughOptionLazy (combinationsF n replacement keys p f a) self c
    | bitMasked .. => self.toByteMasked >>= fun c' => combinationsF n replacement keys p f a c'
    | unmasked _ c =>
      combinationsF n replacement keys p f a c >>= fun c' => ok (unmasked {} c')
    | record _ ks cs length =>
      mapR (combinationsF n replacement keys p f a) cs >>= fun cs' => ok (record {} ks cs' length)
    | union _ tags index cs =>
      mapR (combinationsF n replacement keys p f a) cs >>= fun cs' => ok (union {} tags index cs')

/-- src/awkward/operations/structure.py:3518-3684 `combinations` with a non-negative axis, through
src/python/content.cpp:1577-1602: the number of names must be `n`, and every class checks `n` first.
An EmptyArray has no combinations at any axis (EmptyArray.cpp:586-598). -/
def combinations (n : Nat) (replacement : Bool) (keys : Option (List String)) (p : Params)
    (axis : Nat) (c : Content) : R Content :=
  if (match keys with | none => false | some ks => decide (n ≠ ks.length)) = true then
    err "if provided, the length of 'keys' must be 'n'"
  else if n < 1 then err "in combinations, 'n' must be at least 1"
  else if axis = 0 then match c with
    | empty _ => ok (empty {})
    | c => combinationsAxis0 n replacement keys p c
  else combinationsF n replacement keys p c.rank axis c

end Content
end Awk
