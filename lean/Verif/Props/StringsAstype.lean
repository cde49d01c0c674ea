import Verif.Lemmas.StringsAstype
import Verif.Lemmas.ValEq
import Verif.Props.List
/-
C83: `ak.strings_astype`.
-/

namespace Awk.Props
open R Content

/-- **C83 (partial).** `strings_astype(array, dtype)` replaces every string by the number that NumPy reads from it,
and leaves lists, records, missing values and everything else as it is. It reads each string on its own: the
number does not depend on the other strings, although they are put into one buffer of items of the same size.
Missing: arrays of strings without any bytes (`C83_empty_violated`), strings that are hidden and cannot be read
(`C83_hidden_violated`). -/
theorem C83_strings_astype_partial (parse : List Val → R Atom) (number : List Val → Atom) (dt : DType)
    (c : Content) (h : c.validity = ok ()) (hp : Parsable parse number c) (vs : List Val) (hv : c.toList = ok vs) :
    ∃ d, c.stringsAstype parse dt = ok d ∧ d.toList = ok (vs.map (Val.parsed number)) := by
  have hg := good_of_validity h
  obtain ⟨e, g1, g2⟩ := apply_maps (stringsAstype_applies (dt := dt) hg hp 1) hg
  exact ⟨e, g1, toList_maps hg g2 hv⟩

/-- **C83.** A string that is shown and cannot be read makes the conversion of an array of strings raise: no number
is made up. (The bytes are those of the strings, without zeros at the end.) -/
theorem C83_unreadable (parse : List Val → R Atom) (dt : DType) (c : Content) (h : c.validity = ok ())
    (ht : c.isText) (hd : ∀ d ∈ c.children, ∃ p dt data, d = numpy p dt data) (vs : List Val)
    (hv : c.toList = ok vs) (v : Val) (hm : v ∈ vs) (e : String) (he : parse (Val.trimmed v.items) = err e)
    (d : Content) : c.stringsAstype parse dt ≠ ok d := by
  have hg := good_of_validity h
  rw [hg.toList, ok.injEq] at hv
  subst hv
  obtain ⟨i, hi, rfl⟩ := List.mem_map.mp hm
  have hget := stringsAstype_unreadable (dt := dt) hg ht hd (by simpa using hi) he 1
  intro ha
  unfold stringsAstype at ha
  cases c <;> simp only [isText, isListNode, Bool.false_eq_true, false_and] at ht <;>
    simp only [apply] at ha <;> obtain ⟨r, h1, _⟩ := bind_eq_ok.mp ha <;> exact hget r h1

/-- A reader of numbers with one digit. -/
def oneDigit : List Val → R Atom
  | [.atom (.int x)] => if 48 ≤ x ∧ x ≤ 57 then ok (.int (x - 48)) else err "invalid literal"
  | _ => err "invalid literal"

/-- `[["1", "2"], [], ["3"]]`, with another field of numbers. -/
def digitLists : Content :=
  record {} (some ["x", "y"])
    [listOffset {} [0, 2, 2, 3] (listOffset { arr := .string } [0, 1, 2, 3]
      (numpy { arr := .char } .uint8 [.int 49, .int 50, .int 51])), numpy {} .int64 [.int 7, .int 8, .int 9]] 3

theorem digitLists_parsable : Parsable oneDigit
    (fun vs => match oneDigit vs with | ok a => a | _ => .int 0) digitLists := by
  refine .node (by simp [isText, isListNode, digitLists]) (fun d hd => ?_)
  simp only [digitLists, children, List.mem_cons, List.not_mem_nil, or_false] at hd
  rcases hd with rfl | rfl
  · refine .node (by simp [isText, Content.params]) (fun d hd => ?_)
    simp only [children, List.mem_cons, List.not_mem_nil, or_false] at hd
    subst hd
    have hl : (listOffset { arr := .string } [0, 1, 2, 3]
      (numpy { arr := .char } .uint8 [.int 49, .int 50, .int 51])).toList
        = ok [.str [.atom (.int 49)], .str [.atom (.int 50)], .str [.atom (.int 51)]] := rfl
    refine .text ⟨rfl, .inl rfl⟩ (by simp [children]) ?_ ?_
    · intro vs hv v hm
      rw [hl, ok.injEq] at hv
      subst hv
      simp only [List.mem_cons, List.not_mem_nil, or_false] at hm
      rcases hm with rfl | rfl | rfl <;> rfl
    · intro vs hv
      rw [hl, ok.injEq] at hv
      subst hv
      exact ⟨_, .head _, by simp [Val.items]⟩
  · exact .node (by simp [isText, isListNode]) (by simp [children])

example : ∃ d, digitLists.stringsAstype oneDigit .int64 = ok d ∧ d.toList = ok
    [.record [("x", .list [.atom (.int 1), .atom (.int 2)]), ("y", .atom (.int 7))],
     .record [("x", .list []), ("y", .atom (.int 8))],
     .record [("x", .list [.atom (.int 3)]), ("y", .atom (.int 9))]] :=
  C83_strings_astype_partial oneDigit _ .int64 digitLists rfl digitLists_parsable _ rfl

/-- `["1", "x"]` cannot be converted. -/
example (d : Content) : (listOffset { arr := .string } [0, 1, 2]
    (numpy { arr := .char } .uint8 [.int 49, .int 120])).stringsAstype oneDigit .int64 ≠ ok d :=
  C83_unreadable oneDigit .int64 _ rfl ⟨rfl, .inl rfl⟩ (by simp [children]) _ rfl (.str [.atom (.int 120)])
    (by simp [wrapList]) _ rfl d

/-- **C83 fails** for an array without strings: `max_length` is `None`, and the conversion raises
(structure.py:4583-4584). -/
theorem C83_empty_violated (parse : List Val → R Atom) (dt : DType) :
    let c := listOffset { arr := .string } [0] (numpy { arr := .char } .uint8 [])
    c.validity = ok () ∧ c.toList = ok [] ∧ IsErr (c.stringsAstype parse dt) :=
  ⟨rfl, rfl, ⟨_, rfl⟩⟩

/-- **C83 fails** for strings that are hidden by a mask: they are read as well, and an error is raised because of a
string (here `"x"`) that is not in the array. -/
theorem C83_hidden_violated (parse : List Val → R Atom) (dt : DType) (e : String)
    (hx : parse [.atom (.int 120)] = err e) :
    let c := byteMasked {} [1, 0] false
      (listOffset { arr := .string } [0, 1, 2] (numpy { arr := .char } .uint8 [.int 120, .int 49]))
    c.validity = ok () ∧ c.toList = ok [.null, .str [.atom (.int 49)]] ∧ c.stringsAstype parse dt = err e := by
  refine ⟨rfl, rfl, ?_⟩
  have hs : stringsAstypeGet parse dt 1 () (listOffset { arr := .string } [0, 1, 2]
      (numpy { arr := .char } .uint8 [.int 120, .int 49])) = err e := by
    rw [stringsAstype_view (i0 := 0) (m := 1) (good_of_validity rfl) ⟨rfl, .inl rfl⟩
      (by simp [children]) (by decide) rfl (by decide)]
    show (parse [.atom (.int 120)] >>= fun _ => _) >>= _ = err e
    rw [hx]
    rfl
  have hi : apply (stringsAstypeGet parse dt) 1 () (listOffset { arr := .string } [0, 1, 2]
      (numpy { arr := .char } .uint8 [.int 120, .int 49])) = err e := by
    simp only [apply, hs, bind_err]
  have ho : ∀ x, stringsAstypeGet parse dt 1 () (byteMasked {} [1, 0] false x) = ok (.inr ()) := by
    intro x
    simp [stringsAstypeGet, isListNode]
  rw [stringsAstype, apply, ho, bind_ok]
  simp only [custom, hi, bind_err]

end Awk.Props
