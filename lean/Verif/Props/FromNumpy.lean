import Verif.Lemmas.FromNumpy
import Verif.Lemmas.ValEq
/-
C82: `ak.from_numpy`.
-/

namespace Awk.Props
open R Content

/-- A NumPy array with the given items: what `tolist()` is asked of. -/
def npArray (shape : List Nat) (items : List Val) (mask : NpMask) : NpArray :=
  ⟨shape, items.map some, mask.flags items.length⟩

/-- C82: an array made from a NumPy array (of numbers, strings or bytestrings, with any number of dimensions,
masked or not) can be read everywhere and shows the same nested lists as the NumPy array.

Partial: structured arrays are not modelled, and an array of strings with `regulararray=False` must not have
the length 0 in its third or a later dimension (see `C82_strings_violated`). -/
theorem C82_from_numpy_partial (regulararray : Bool) (kind : NpKind) (width n : Nat) (dims : List Nat)
    (items : List Val) (mask : NpMask) (c : Content)
    (hsize : items.length = (n :: dims).prod) (hmask : mask.Covers items.length)
    (hitems : ∀ v ∈ items, kind.Has width v)
    (hzero : (∀ dt, kind ≠ .number dt) → 0 ∉ dims.tail)
    (h : fromNumpy regulararray kind width (n :: dims) items mask = ok c) :
    c.Good ∧ ∃ xs, c.toList = ok xs ∧ (npArray (n :: dims) items mask).toList = ok xs := by
  obtain ⟨data, hf, hd⟩ := fromNpFlat_presents hitems
  rw [fromNumpy, hf, bind_ok] at h
  rw [List.prod_cons] at hsize
  have key : Presents c (NpArray.rows dims (npShown mask items) n) := by
    cases mask with
    | absent => exact fromNpRecurse_presents hf hd hsize hmask (fun hk _ => hzero hk) (by simp) h
    | nomask => exact fromNpRecurse_presents hf hd hsize hmask (fun hk _ => hzero hk) (by simp) h
    | array m =>
      cases dims with
      | nil => exact fromNpRecurse_presents hf hd hsize hmask (fun hk _ => hzero hk) (by simp) h
      | cons s dims => exact fromNpRecurse_presents hf hd hsize hmask (fun hk _ => hzero hk) (by simp) h
  refine ⟨key.good, _, key.toList, ?_⟩
  have h1 := mapR_shown hmask
  simp only [npArray, NpArray.toList, NpArray.maskArray, List.length_map, h1, bind_ok]

/-- C82: with `regulararray=True`, an array without a length of 0 in its third or a later dimension is
accepted, with any mask. -/
theorem C82_accepts_partial (kind : NpKind) (width n : Nat) (dims : List Nat) (items : List Val) (mask : NpMask)
    (hitems : ∀ v ∈ items, kind.Has width v) (hzero : 0 ∉ dims.tail) :
    IsOk (fromNumpy true kind width (n :: dims) items mask) := by
  obtain ⟨data, hf, hd⟩ := fromNpFlat_presents hitems
  rw [fromNumpy, hf, bind_ok]
  cases mask with
  | array m => cases dims <;> exact fromNpRecurse_ok hzero
  | _ => exact fromNpRecurse_ok hzero

/-- C82: arrays of strings without a mask are accepted with any shape. -/
theorem C82_accepts_strings (regulararray : Bool) (kind : NpKind) (width n : Nat) (dims : List Nat)
    (items : List Val) (hkind : ∀ dt, kind ≠ .number dt)
    (hitems : ∀ v ∈ items, kind.Has width v) (hzero : regulararray = true → 0 ∉ dims.tail) :
    IsOk (fromNumpy regulararray kind width (n :: dims) items .absent) := by
  obtain ⟨data, hf, hd⟩ := fromNpFlat_presents hitems
  rw [fromNumpy, hf, bind_ok]
  cases regulararray with
  | true => exact fromNpRecurse_ok (hzero rfl)
  | false =>
    cases kind with
    | number dt => exact absurd rfl (hkind dt)
    | bytes => cases dims <;> exact ⟨_, rfl⟩
    | text => cases dims <;> exact ⟨_, rfl⟩

/-- The string of the given bytes. -/
def npStr (xs : List Int) : Val := .str (xs.map (fun x => .atom (.int x)))

/-- `numpy.array([["a", "bc"], ["", "d"], ["ef", "g"]])`. -/
def npWords : List Val := [npStr [97], npStr [98, 99], npStr [], npStr [100], npStr [101, 102], npStr [103]]

theorem npWords_has : ∀ v ∈ npWords, NpKind.text.Has 2 v := by
  intro v hv
  simp only [npWords, List.mem_cons, List.not_mem_nil, or_false] at hv
  rcases hv with rfl | rfl | rfl | rfl | rfl | rfl
  · exact ⟨[.int 97], rfl, by decide⟩
  · exact ⟨[.int 98, .int 99], rfl, by decide⟩
  · exact ⟨[], rfl, by decide⟩
  · exact ⟨[.int 100], rfl, by decide⟩
  · exact ⟨[.int 101, .int 102], rfl, by decide⟩
  · exact ⟨[.int 103], rfl, by decide⟩

/-- The hypotheses are met by a masked array of strings with two dimensions. -/
example : ∃ c, fromNumpy false .text 2 [3, 2] npWords (.array [false, true, false, false, true, false]) = ok c ∧
    c.Good ∧ c.toList = ok [.list [npStr [97], .null], .list [npStr [], npStr [100]],
      .list [.null, npStr [103]]] := by
  obtain ⟨c, hc⟩ := C82_accepts_partial .text 2 3 [2] npWords (.array [false, true, false, false, true, false])
    npWords_has (by decide)
  obtain ⟨h1, xs, h2, h3⟩ := C82_from_numpy_partial true .text 2 3 [2] npWords
    (.array [false, true, false, false, true, false]) c (by decide) rfl npWords_has (by decide) hc
  refine ⟨c, hc, h1, ?_⟩
  rw [h2, ← h3]
  rfl

/-- … and by an array of strings without a mask. -/
example : IsOk (fromNumpy false .text 2 [3, 2, 1] npWords .absent) :=
  C82_accepts_strings false .text 2 3 [2, 1] npWords (by simp) npWords_has (by simp)

/-- Violation (convert.py:107-108, 122-123): the lists of an array of strings with the shape `(2, 3, 0)` get the
`zeros_length` 3 in place of 6, so that the array has 1 item in place of 2. -/
theorem C82_strings_violated : ∃ c, fromNumpy false .text 1 [2, 3, 0] [] .absent = ok c ∧
    c.toList = ok [.list [.list [], .list [], .list []]] ∧
    (npArray [2, 3, 0] [] .absent).toList =
      ok [.list [.list [], .list [], .list []], .list [.list [], .list [], .list []]] :=
  ⟨_, rfl, rfl, rfl⟩

/-- Violation (convert.py:86): `regulararray=True` raises for an array with the shape `(2, 3, 0)`, because NumPy
cannot find the length for `reshape((-1, 0))`. -/
theorem C82_regular_violated (dt : DType) :
    IsErr (fromNumpy true (.number dt) 8 [2, 3, 0] [] .absent) ∧
    (npArray [2, 3, 0] [] .absent).toList =
      ok [.list [.list [], .list [], .list []], .list [.list [], .list [], .list []]] :=
  ⟨⟨_, rfl⟩, rfl⟩

/-- Violation (convert.py:135-141): a masked array of strings without a mask array, with more than one
dimension, raises whatever its items are. -/
theorem C82_masked_strings_violated (kind : NpKind) (width n s : Nat) (dims : List Nat) (items : List Val)
    (hkind : ∀ dt, kind ≠ .number dt) (c : Content) :
    fromNumpy false kind width (n :: s :: dims) items .nomask ≠ ok c := by
  intro h
  rw [fromNumpy] at h
  obtain ⟨data, h1, h2⟩ := bind_eq_ok.mp h
  cases kind with
  | number dt => exact hkind dt rfl
  | bytes =>
    simp only [fromNpRecurse, fromNpMask] at h2
    exact attach_text (flat_attach (by simp) h1) c (by simpa using h2)
  | text =>
    simp only [fromNpRecurse, fromNpMask] at h2
    exact attach_text (flat_attach (by simp) h1) c (by simpa using h2)

end Awk.Props
