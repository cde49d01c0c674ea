import Verif.Lemmas.ConcatLists
import Verif.Lemmas.ValEq
import Verif.Props.Merge
/-
C78: `ak.concatenate` at axis 1 appends the lists of each row.
-/

namespace Awk.Props
open R Content

/-- The outcome is undefined. -/
theorem undefined {α : Type} {x : R α} (h : (match x with | .ub => true | _ => false) = true) : x = ub := by
  cases x <;> simp at h; rfl

/-- C78 for axis 1. At most 127 arrays of lists that have the same length: element `i` of the result is the list
with the items of element `i` of the first array, then those of the second array, and so on. Items of different
types are promoted as in C18 (`Val.canon`). Missing: missing lists, deeper axes, arrays of length 1 that are
broadcasted, and arrays with unions inside. -/
theorem C78_concatenate_lists_partial {same : Content → Content → Bool} (hsame : ∀ a b, same a b = true → a = b)
    {no : Without} (hu : no.union) {domerge mb : Bool} (hdm : domerge = true → no.indexed ∨ no.option)
    {fuel : Nat} (hf : 2 ≤ fuel) {n : Nat} (hn : n < 2 ^ 63 - 1) (x : Content × List Val)
    (xs : List (Content × List Val)) (hm : (x :: xs).length ≤ 127)
    (hx : ∀ x' ∈ x :: xs, x'.1.validity = ok () ∧ x'.1.ListArrays ∧ AllNodes (JoinNode no) x'.1 ∧
      x'.1.toList = ok x'.2 ∧ x'.2.length = n) :
    ∃ r us, concatenate same domerge mb fuel 1 ((x :: xs).map Prod.fst) = ok (.array r) ∧ r.toList = ok us ∧
      us.length = n ∧ ∀ i (_ : i < n), us[i]?.map Val.canon
        = some (Val.list ((x :: xs).flatMap (fun x' => (x'.2[i]?.getD .null).items))).canon := by
  have hg : ∀ c ∈ (x :: xs).map Prod.fst, c.Good := by
    intro c hc
    obtain ⟨x', h, rfl⟩ := List.mem_map.mp hc
    exact good_of_validity (hx x' h).1
  have hvals : ∀ x' ∈ x :: xs, x'.1.len = n ∧ ∀ i, i < n → x'.2[i]?.getD .null = x'.1.valD i := by
    intro x' h
    obtain ⟨h1, _, _, h2, h3⟩ := hx x' h
    rw [(good_of_validity h1).toList] at h2
    simp only [ok.injEq] at h2
    rw [← h2] at h3 ⊢
    simp only [List.length_map, List.length_range] at h3
    subst h3
    exact ⟨rfl, fun i hi => by simp [List.getElem?_range hi]⟩
  obtain ⟨r, us, h1, h2, h3, h4⟩ := concatenate_lists_ok hsame hu (domerge := domerge) (mb := mb) hdm hf
    (cs := (x :: xs).map Prod.fst) (by simp) (by simpa using hm) hn hg
    (fun c hc => by obtain ⟨x', h, rfl⟩ := List.mem_map.mp hc; exact (hx x' h).2.1)
    (fun c hc => by obtain ⟨x', h, rfl⟩ := List.mem_map.mp hc; exact (hvals x' h).1)
    (fun c hc => by obtain ⟨x', h, rfl⟩ := List.mem_map.mp hc; exact (hx x' h).2.2.1)
    (axis := 1) (fun _ _ => rfl)
  refine ⟨r, us, h1, h3, by simpa using congrArg List.length h4, fun i hi => ?_⟩
  have := congrArg (fun l => l[i]?) h4
  simp only [List.getElem?_map, List.getElem?_range hi, Option.map_some] at this
  rw [this, List.flatMap_def]
  congr 4
  rw [List.map_map]
  exact List.map_congr_left (fun x' h => by simp only [Function.comp]; rw [(hvals x' h).2 i hi])

/-- `[[1, 2], [], [3]]` as a ListOffsetArray, and `[[20.0, 30.0], [], [30.0]]` as a ListArray. -/
def intLists : Content × List Val :=
  (listOffset {} [0, 2, 2, 3] (numpy {} .int64 [.int 1, .int 2, .int 3]),
    [.list [.atom (.int 1), .atom (.int 2)], .list [], .list [.atom (.int 3)]])

@[inherit_doc intLists]
def floatLists : Content × List Val :=
  (listArray {} [1, 0, 2] [3, 0, 3] (numpy {} .float64 [.real 10, .real 20, .real 30]),
    [.list [.atom (.real 20), .atom (.real 30)], .list [], .list [.atom (.real 30)]])

/-- The hypotheses hold for lists of different types and representations. -/
example : ∃ r us, concatenate (fun _ _ => false) true true 2 1 ([intLists, floatLists].map Prod.fst)
      = ok (.array r) ∧ r.toList = ok us ∧ us.length = 3 ∧ ∀ i (_ : i < 3), us[i]?.map Val.canon
        = some (Val.list ([intLists, floatLists].flatMap (fun x' => (x'.2[i]?.getD .null).items))).canon :=
  C78_concatenate_lists_partial (no := ⟨True, True, False, False⟩) (fun _ _ h => by simp at h) trivial
    (fun _ => .inl trivial) (by omega) (by omega) intLists [floatLists] (by decide) (by
      intro x' h
      simp only [List.mem_cons, List.not_mem_nil, or_false] at h
      rcases h with rfl | rfl
      · refine ⟨rfl, ⟨rfl, rfl⟩, ?_, rfl, rfl⟩
        simp [intLists, all_listOffset, all_numpy, JoinNode, MergeNode, isRecord]
      · refine ⟨rfl, ⟨rfl, rfl⟩, ?_, rfl, rfl⟩
        simp [floatLists, all_listArray, all_numpy, JoinNode, MergeNode, isRecord])

/-- C78 is false of missing lists in an UnmaskedArray: filling the missing lists also fills the missing items.
`[[1, None], [], [2]]` and `[[1, 2], [], [3]]` give `[[1, [], 1, 2], [], [2, 3]]`. -/
theorem C78_unmasked_violated :
    ∃ a b, a.validity = ok () ∧ b.validity = ok () ∧
      a.toList = ok [.list [.atom (.int 1), .null], .list [], .list [.atom (.int 2)]] ∧
      b.toList = ok [.list [.atom (.int 1), .atom (.int 2)], .list [], .list [.atom (.int 3)]] ∧
      (concatenate (fun _ _ => false) true true 2 1 [a, b] >>= Item.toVal)
        = ok (.list [.list [.atom (.int 1), .list [], .atom (.int 1), .atom (.int 2)], .list [],
          .list [.atom (.int 2), .atom (.int 3)]]) :=
  ⟨unmasked {} (listOffset {} [0, 2, 2, 3] (indexedOption {} [0, -1, 1] (numpy {} .int64 [.int 1, .int 2]))),
    listOffset {} [0, 2, 2, 3] (numpy {} .int64 [.int 1, .int 2, .int 3]), rfl, rfl, rfl, rfl,
    R.gives (by decide +kernel)⟩

/-- C78 is false of 128 arrays: the number of arrays wraps around in 8 bits, so the tags and the index are not
written. -/
theorem C78_many_violated :
    ∃ a, a.validity = ok () ∧ a.toList = ok [.list [.atom (.int 1)]] ∧
      concatenate (fun _ _ => false) true true 2 1 (List.replicate 128 a) = ub :=
  ⟨listOffset {} [0, 1] (numpy {} .int64 [.int 1]), rfl, rfl, undefined (by decide +kernel)⟩

/-- C78 is false of strings at the axis: the characters of strings are appended to lists of numbers, instead of
raising or keeping the string. `[["ab"]]` and `[[[5]]]` at axis 2 give `[[[97, 98, 5]]]`. -/
theorem C78_strings_violated :
    ∃ a b, a.validity = ok () ∧ b.validity = ok () ∧
      a.toList = ok [.list [.str [.atom (.int 97), .atom (.int 98)]]] ∧
      b.toList = ok [.list [.list [.atom (.int 5)]]] ∧
      (concatenate (fun _ _ => false) true true 3 2 [a, b] >>= Item.toVal)
        = ok (.list [.list [.list [.atom (.int 97), .atom (.int 98), .atom (.int 5)]]]) :=
  ⟨listOffset {} [0, 1] (listOffset { arr := .string } [0, 2] (numpy { arr := .char } .uint8 [.int 97, .int 98])),
    listOffset {} [0, 1] (listOffset {} [0, 1] (numpy {} .int64 [.int 5])), rfl, rfl, rfl, rfl,
    R.gives (by decide +kernel)⟩

end Awk.Props
