import Verif.Lemmas.AllNodes
import Verif.Lemmas.Fillna
import Verif.Lemmas.Concat
import Verif.Props.List
/-
Property theorems C17, C18 and C23: `simplify` of unions, `merge` and `concatenate`, `fill_none`.

`same` stands for the test whether two arrays are the same object. It is only known that the same
object has the same contents.
-/

namespace Awk
open R

namespace Content

theorem Alternative.good {c : Content} (h : Alternative c) : c.Good := by
  cases h with
  | valid h => exact good_of_validity h
  | nested h hr =>
    obtain ⟨h1, h2⟩ := hr
    exact good_union.mpr ⟨h1, fun c hc => good_of_validity (h c hc), h2⟩

theorem flat_toList {cs : List Content} {vss : List (List Val)} (hg : ∀ c ∈ cs, c.Good)
    (h : List.Forall₂ (fun c vs => c.toList = ok vs) cs vss) :
    flat cs = vss.flatten.map Val.canon := by
  induction h with
  | nil => rfl
  | cons h _ ih =>
    have := ih (fun c hc => hg c (List.mem_cons_of_mem _ hc))
    simp only [flat, List.map_cons, List.flatten_cons, List.map_append] at this ⊢
    rw [this, cv_toList (hg _ List.mem_cons_self) h]

theorem toList_cv {c : Content} (h : c.Good) {vs : List Val} (hv : c.cv = vs.map Val.canon) :
    ∃ ws, c.toList = ok ws ∧ ws.map Val.canon = vs.map Val.canon :=
  ⟨_, h.toList, by rw [← hv, cv_toList h h.toList]⟩

end Content

namespace Props
open Content

/-- C17: `simplify` of a union with any number of alternatives, some of which may be unions
themselves, gives an array of the same elements (as values: numbers compare as numbers, records as
sets of fields). It never leaves its buffers. Apart from unions deeper inside and too many
alternatives for the tags, it does not raise.

Missing from the full property: when alternatives are merged, the arrays have no IndexedArrays or
no option types, and their records have fields of exactly the length of the record; see
`C18_mixed_violated`, `C18_untrimmed_violated` and `C18_no_fields_violated`. -/
theorem C17_simplify_partial (same : Content → Content → Bool)
    (hsame : ∀ a b, same a b = true → a = b) (no : Without) (domerge mb : Bool)
    (hno : domerge = true → no.indexed ∨ no.option) (p : Params) (tags index : List Int)
    (cs : List Content) (hcs : ∀ c ∈ cs, Alternative c) (hr : UnionRefers tags index cs)
    (hn : ∀ c ∈ cs, ∀ d ∈ c.alts, AllNodes (MergeNode no) d) (vs : List Val)
    (hv : (union p tags index cs).toList = ok vs) :
    (simplifyUnion same domerge mb p tags index cs).Sat (fun c => ∃ ws, c.toList = ok ws ∧
      ws.map Val.canon = vs.map Val.canon) ∧
    (no.union → (cs.flatMap alts).length ≤ 127 →
      ∃ c, simplifyUnion same domerge mb p tags index cs = ok c) := by
  obtain ⟨h1, h2⟩ := hr
  have hg : (union p tags index cs).Good :=
    good_union.mpr ⟨h1, fun c hc => (hcs c hc).good, h2⟩
  have hin : ∀ c ∈ cs, ∀ d ∈ c.alts, Input no d := by
    intro c hc d hd
    refine ⟨?_, hn c hc d hd⟩
    have := (hcs c hc).good
    cases c <;> simp only [alts, List.mem_singleton] at hd
    case union => exact this.child (by simpa [children] using hd)
    all_goals subst hd; exact this
  have key := simplifyUnion_ok (mb := mb) hsame hno hg hin
  refine ⟨key.1.mono ?_, fun hu hl => key.2 ⟨hu, hl⟩⟩
  rintro c ⟨hc, hcv⟩
  rw [cv_toList hg hv] at hcv
  exact toList_cv hc hcv

/-- C18: `merge` of two arrays that the library calls mergeable succeeds, and the elements of the
result are those of the first array and those of the second (as values).

Missing from the full property: unions inside the arrays, IndexedArrays together with option types
and records with fields of another length than the record; see `C18_mixed_violated`,
`C18_untrimmed_violated` and `C18_no_fields_violated`. -/
theorem C18_merge_partial (no : Without) (hu : no.union) (hno : no.indexed ∨ no.option) (mb : Bool)
    (a b : Content) (ha : a.validity = ok ()) (hb : b.validity = ok ())
    (hna : AllNodes (MergeNode no) a) (hnb : AllNodes (MergeNode no) b)
    (hm : mergeable mb a b = true) (vs ws : List Val) (hv : a.toList = ok vs)
    (hw : b.toList = ok ws) :
    ∃ c, merge a b = ok c ∧ ∃ us, c.toList = ok us ∧
      us.map Val.canon = (vs ++ ws).map Val.canon := by
  obtain ⟨t, h1, h2⟩ := mergeable_type hno hna hnb hm
  have ga := good_of_validity ha
  have gb := good_of_validity hb
  have hi : Ins no t [a, b] := by
    intro c hc
    simp only [List.mem_cons, List.not_mem_nil, or_false] at hc
    rcases hc with rfl | rfl
    · exact ⟨⟨ga, hna⟩, h1⟩
    · exact ⟨⟨gb, hnb⟩, h2⟩
  have key := mergemany_ok hi
  obtain ⟨c, hc⟩ := key.2 hu
  have ho := key.1
  unfold merge
  rw [hc] at ho ⊢
  simp only [sat_ok] at ho
  refine ⟨c, rfl, toList_cv ho.input.good ?_⟩
  rw [ho.cv]
  simp [flat, cv_toList ga hv, cv_toList gb hw]

/-- C18: merging any number of arrays of one type (which may contain unions) gives the elements of
all of them in order, or an error; without unions it succeeds. -/
theorem C18_mergemany_partial (no : Without) (t : Ty) (c : Content) (cs : List Content)
    (hc : ∀ d ∈ c :: cs, d.validity = ok () ∧ AllNodes (MergeNode no) d ∧ OfType t d)
    (vss : List (List Val)) (hv : List.Forall₂ (fun d vs => d.toList = ok vs) (c :: cs) vss) :
    (mergemany c cs).Sat (fun r => ∃ us, r.toList = ok us ∧
      us.map Val.canon = vss.flatten.map Val.canon) ∧
    (no.union → ∃ r, mergemany c cs = ok r) := by
  have hi : Ins no t (c :: cs) :=
    fun d hd => ⟨⟨good_of_validity (hc d hd).1, (hc d hd).2.1⟩, (hc d hd).2.2⟩
  have key := mergemany_ok hi
  refine ⟨key.1.mono fun r ho => toList_cv ho.input.good ?_, key.2⟩
  rw [ho.cv]
  exact flat_toList (fun d hd => (hi d hd).1.good) hv

/-- C18: `ak.concatenate` of any number of arrays of one type succeeds and gives the elements of
all of them in order. -/
theorem C18_concatenate_partial (same : Content → Content → Bool) (no : Without) (hu : no.union)
    (domerge mb : Bool) (t : Ty) (c : Content) (cs : List Content)
    (hc : ∀ d ∈ c :: cs, d.validity = ok () ∧ AllNodes (MergeNode no) d ∧ OfType t d)
    (hm : List.IsChain (fun a b => mergeable mb a b = true) (c :: cs))
    (vss : List (List Val)) (hv : List.Forall₂ (fun d vs => d.toList = ok vs) (c :: cs) vss) :
    ∃ r, concatenate0 same domerge mb (c :: cs) = ok r ∧ ∃ us, r.toList = ok us ∧
      us.map Val.canon = vss.flatten.map Val.canon := by
  have hi : Ins no t (c :: cs) :=
    fun d hd => ⟨⟨good_of_validity (hc d hd).1, (hc d hd).2.1⟩, (hc d hd).2.2⟩
  obtain ⟨r, h1, h2, h3⟩ := concatenate0_ok (same := same) (domerge := domerge) hu hi hm
  refine ⟨r, h1, toList_cv h2 ?_⟩
  rw [h3]
  exact flat_toList (fun d hd => (hi d hd).1.good) hv

/-- C18: `ak.concatenate` of any two arrays succeeds and gives the elements of both in order, also
when their types have nothing in common. -/
theorem C18_concatenate_two_partial (same : Content → Content → Bool)
    (hsame : ∀ a b, same a b = true → a = b) (no : Without) (hu : no.union)
    (hno : no.indexed ∨ no.option) (domerge mb : Bool) (a b : Content)
    (ha : a.validity = ok ()) (hb : b.validity = ok ())
    (hna : AllNodes (MergeNode no) a) (hnb : AllNodes (MergeNode no) b) (vs ws : List Val)
    (hv : a.toList = ok vs) (hw : b.toList = ok ws) :
    ∃ c, concatenate0 same domerge mb [a, b] = ok c ∧ ∃ us, c.toList = ok us ∧
      us.map Val.canon = (vs ++ ws).map Val.canon := by
  have ga := good_of_validity ha
  have gb := good_of_validity hb
  obtain ⟨r, h1, h2, h3⟩ := concatenate0_two (domerge := domerge) (mb := mb) hsame hu hno
    ⟨ga, hna⟩ ⟨gb, hnb⟩
  refine ⟨r, h1, toList_cv h2 ?_⟩
  rw [h3, cv_toList ga hv, cv_toList gb hw, List.map_append]

/-- C18: `ak.concatenate` of any number of arrays of any types, of which neighbours only count as
mergeable when they have the same type: if it succeeds, it gives the elements of all of them in
order. -/
theorem C18_concatenate_any_partial (same : Content → Content → Bool)
    (hsame : ∀ a b, same a b = true → a = b) (no : Without) (domerge mb : Bool)
    (hno : domerge = true → no.indexed ∨ no.option) (x : Content × Ty) (xs : List (Content × Ty))
    (hx : ∀ y ∈ x :: xs, y.1.validity = ok () ∧ AllNodes (MergeNode no) y.1 ∧ OfType y.2 y.1)
    (hn : List.IsChain (fun a b => mergeable mb a.1 b.1 = true → a.2 = b.2) (x :: xs))
    (vss : List (List Val))
    (hv : List.Forall₂ (fun d vs => d.toList = ok vs) ((x :: xs).map Prod.fst) vss) :
    (concatenate0 same domerge mb ((x :: xs).map Prod.fst)).Sat (fun r => ∃ us, r.toList = ok us ∧
      us.map Val.canon = vss.flatten.map Val.canon) := by
  have hx' : ∀ y ∈ x :: xs, Input no y.1 ∧ OfType y.2 y.1 :=
    fun y hy => ⟨⟨good_of_validity (hx y hy).1, (hx y hy).2.1⟩, (hx y hy).2.2⟩
  have hn' : ∀ l : List (Content × Ty),
      List.IsChain (fun a b => mergeable mb a.1 b.1 = true → a.2 = b.2) l → Neighbours mb l := by
    intro l hl
    induction hl with
    | nil => trivial
    | singleton => trivial
    | cons_cons h _ ih => exact ⟨h, ih⟩
  refine (concatenate0_any hsame hno hx' (hn' _ hn)).mono ?_
  rintro r ⟨h1, h2⟩
  refine toList_cv h1 ?_
  rw [h2]
  refine flat_toList ?_ hv
  intro d hd
  obtain ⟨y, hy, rfl⟩ := List.mem_map.mp hd
  exact (hx' y hy).1.good

/-- C23: `fill_none` with the value `v` succeeds, and the elements of the result are those of the
array with `v` in the place of every missing value (as values).

Missing from the full property: unions, missing values inside of elements that may be missing
themselves (see `C23_nested_violated`), and the guards of C18. -/
theorem C23_fillna_partial (same : Content → Content → Bool)
    (hsame : ∀ a b, same a b = true → a = b) (no : Without) (hu : no.union)
    (hno : no.indexed ∨ no.option) (value : Content) (v : Val) (hvv : value.validity = ok ())
    (hvn : AllNodes (MergeNode no) value) (hvl : value.toList = ok [v]) (c : Content)
    (hc : c.validity = ok ()) (hn : AllNodes (MergeNode no) c) (hs : AllNodes SingleOption c)
    (vs : List Val) (hv : c.toList = ok vs) :
    ∃ r, fillna same value c = ok r ∧ ∃ ws, r.toList = ok ws ∧
      ws.map Val.canon = vs.map (fun x => (x.fill v).canon) := by
  have gv := good_of_validity hvv
  have gc := good_of_validity hc
  rw [gv.toList] at hvl
  have h1 : value.len = 1 := by
    have := congrArg (fun r : R (List Val) => match r with | ok l => l.length | _ => 0) hvl
    simpa using this
  have h2 : value.valD 0 = v := by
    rw [h1] at hvl
    simpa using hvl
  obtain ⟨r, e1, e2⟩ := fillna_ok hsame hu hno ⟨gv, hvn⟩ h1 h2 ⟨gc, hn⟩ hs
  refine ⟨r, e1, _, e2.good.toList, ?_⟩
  rw [gc.toList] at hv
  injection hv with hv
  subst hv
  rw [e2.len]
  simp only [List.map_map]
  apply List.map_congr_left
  intro i hi
  exact e2.val i (List.mem_range.mp hi)

/-! ### The hypotheses are satisfiable, and what goes wrong without them -/

section Examples

private def ints (l : List Int) : Content := .numpy {} .int64 (l.map .int)
private def reals (l : List Rat) : Content := .numpy {} .float64 (l.map .real)
private def never : Content → Content → Bool := fun _ _ => false
private def plain : Without := ⟨True, True, False, False⟩

/-- A union of a list of optional numbers and a union of numbers and lists. -/
private def nestedUnion : List Content :=
  [.listOffset {} [0, 2, 3] (.indexedOption {} [0, -1, 1] (ints [1, 2])),
   .union {} [0, 1, 0] [0, 0, 1] [reals [5, 6], .listOffset {} [0, 1] (reals [7])]]

example : (∀ a b, never a b = true → a = b) ∧ (∀ c ∈ nestedUnion, Alternative c) ∧
    UnionRefers [0, 1, 0, 1, 1] [0, 0, 1, 1, 2] nestedUnion ∧
    (∀ c ∈ nestedUnion, ∀ d ∈ c.alts, AllNodes (MergeNode plain) d) ∧
    (∃ vs, (union {} [0, 1, 0, 1, 1] [0, 0, 1, 1, 2] nestedUnion).toList = ok vs) ∧
    (nestedUnion.flatMap alts).length ≤ 127 := by
  have hr : ∀ c ∈ nestedUnion, Alternative c := by
    intro c hc
    simp only [nestedUnion, List.mem_cons, List.not_mem_nil, or_false] at hc
    rcases hc with rfl | rfl
    · exact .valid rfl
    · refine .nested ?_ ⟨by simp, ?_⟩
      · intro c hc
        simp only [List.mem_cons, List.not_mem_nil, or_false] at hc
        rcases hc with rfl | rfl <;> rfl
      · intro i hi
        match i, hi with
        | 0, _ => simp [nestedUnion, ints, reals, len]
        | 1, _ => simp [nestedUnion, ints, reals, len]
        | 2, _ => simp [nestedUnion, ints, reals, len]
  refine ⟨by simp [never], hr, ⟨by simp, ?_⟩, ?_, ⟨_, rfl⟩, by decide⟩
  · intro i hi
    match i, hi with
    | 0, _ => simp [nestedUnion, ints, reals, len]
    | 1, _ => simp [nestedUnion, ints, reals, len]
    | 2, _ => simp [nestedUnion, ints, reals, len]
    | 3, _ => simp [nestedUnion, ints, reals, len]
    | 4, _ => simp [nestedUnion, ints, reals, len]
  · simp [nestedUnion, alts, all_numpy, all_listOffset, all_regular, all_indexedOption, all_byteMasked, all_record,
      MergeNode, plain, ints, reals]

private def recA : Content :=
  .record {} (some ["x", "y"]) [ints [1, 2], .listOffset {} [0, 0, 1] (ints [3])] 2
private def recB : Content :=
  .record {} (some ["y", "x"])
    [.regular {} (reals [4, 5]) 2 0, .byteMasked {} [1] false (reals [6])] 1

example : recA.validity = ok () ∧ recB.validity = ok () ∧ AllNodes (MergeNode plain) recA ∧
    AllNodes (MergeNode plain) recB ∧ mergeable true recA recB = true ∧
    (∃ vs, recA.toList = ok vs) ∧ (∃ ws, recB.toList = ok ws) := by
  refine ⟨rfl, rfl, ?_, ?_, by rfl, ⟨_, rfl⟩, ⟨_, rfl⟩⟩ <;>
    simp [recA, recB, all_numpy, all_listOffset, all_regular, all_indexedOption, all_byteMasked, all_record,
      MergeNode, plain, ints, reals, len]

private def recT : Ty :=
  .record ({} : Params).key [("x", .opt ({} : Params).key true (.leaf ({} : Params).key .number)),
    ("y", .list ({} : Params).key (.leaf ({} : Params).key .number))]

example : OfType recT recA ∧ OfType recT recB ∧
    List.IsChain (fun a b => mergeable false a b = true) [recA, recB, recA] ∧
    mergeable false recA (ints [1]) = false := by
  refine ⟨.record (by simp) rfl ?_, .record (List.Perm.swap _ _ _) rfl ?_, ?_, by rfl⟩
  · intro kt hkt d hd
    simp only [List.mem_cons, List.not_mem_nil, or_false] at hkt
    rcases hkt with rfl | rfl
    · obtain rfl : ints [1, 2] = d := by simpa [column, List.lookup] using hd
      exact .plain (c := ints [1, 2]) rfl (.leaf (p := {}) (d := .int64))
    · obtain rfl : listOffset {} [0, 0, 1] (ints [3]) = d := by simpa [column, List.lookup] using hd
      exact .list (c := listOffset {} [0, 0, 1] (ints [3])) rfl (by
        simp only [children, List.mem_singleton]; rintro d rfl; exact .leaf (p := {}) (d := .int64))
  · intro kt hkt d hd
    simp only [List.mem_cons, List.not_mem_nil, or_false] at hkt
    rcases hkt with rfl | rfl
    · obtain rfl : byteMasked {} [1] false (reals [6]) = d := by
        simpa [column, List.lookup] using hd
      exact .opt (c := byteMasked {} [1] false (reals [6])) rfl (by
        simp only [children, List.mem_singleton]; rintro d rfl; exact .leaf (p := {}) (d := .float64))
    · obtain rfl : regular {} (reals [4, 5]) 2 0 = d := by simpa [column, List.lookup] using hd
      exact .list (c := regular {} (reals [4, 5]) 2 0) rfl (by
        simp only [children, List.mem_singleton]; rintro d rfl; exact .leaf (p := {}) (d := .float64))
  · exact .cons_cons (by rfl) (.cons_cons (by rfl) (.singleton _))

private def optList : Content :=
  .listOffset {} [0, 2, 3] (.indexedOption {} [1, -1, 0] (ints [7, 8]))

example : optList.validity = ok () ∧ AllNodes (MergeNode plain) optList ∧
    AllNodes SingleOption optList ∧
    (∃ vs, optList.toList = ok vs) ∧ (ints [9]).toList = ok [.atom (.int 9)] ∧
    (ints [9]).validity = ok () ∧ AllNodes (MergeNode plain) (ints [9]) := by
  refine ⟨rfl, ?_, ?_, ⟨_, rfl⟩, rfl, rfl, ?_⟩ <;>
    simp [optList, all_numpy, all_listOffset, all_regular, all_indexedOption, all_byteMasked, all_record,
      MergeNode, SingleOption, plain, ints, isOption]

/-- C18 fails when an array with missing values and an IndexedArray are merged: the result is an
IndexedArray with a negative index, whose elements cannot be read. -/
theorem C18_mixed_violated :
    ∃ a b c, a.validity = ok () ∧ b.validity = ok () ∧ mergeable true a b = true ∧
      merge a b = ok c ∧ (∃ e, c.toList = err e) :=
  ⟨.indexedOption {} [0, -1] (ints [1, 2]), .indexed {} [0] (ints [3]), _, rfl, rfl,
    by decide +kernel, rfl, _, rfl⟩

/-- C18 fails for a record array with a field that is longer than the array: elements that do not
belong to the array appear in the result. -/
theorem C18_untrimmed_violated :
    ∃ a b c vs ws us, a.validity = ok () ∧ b.validity = ok () ∧ mergeable true a b = true ∧
      a.toList = ok vs ∧ b.toList = ok ws ∧ merge a b = ok c ∧ c.toList = ok us ∧
      us.length ≠ vs.length + ws.length :=
  ⟨.record {} (some ["x"]) [ints [1, 2, 3]] 2, .record {} (some ["x"]) [ints [4]] 1, _, _, _, _,
    rfl, rfl, by decide +kernel, rfl, rfl, rfl, rfl, by decide⟩

/-- C18 fails for record arrays without fields: the length of the result would be -1. -/
theorem C18_no_fields_violated :
    ∃ a b, a.validity = ok () ∧ b.validity = ok () ∧ mergeable true a b = true ∧
      (∃ e, merge a b = err e) :=
  ⟨.record {} none [] 2, .record {} none [] 3, rfl, rfl, by decide +kernel, _, rfl⟩

/-- Complex numbers of both sizes. -/
example : let a : Content := .numpy {} .complex64 [.complex 1 2, .complex 3 0]
    let b : Content := .numpy {} .complex128 [.complex 5 6]
    let no : Without := ⟨True, True, False, True⟩
    a.validity = ok () ∧ b.validity = ok () ∧ AllNodes (MergeNode no) a ∧ AllNodes (MergeNode no) b ∧
      mergeable true a b = true ∧
      merge a b = ok (.numpy {} .complex128 [.complex 1 2, .complex 3 0, .complex 5 6]) := by
  refine ⟨rfl, rfl, ?_, ?_, by rfl, rfl⟩ <;> simp [all_numpy, MergeNode]

/-- C18 fails when complex numbers and other numbers are merged: only half of the other numbers are
copied, and the complex numbers follow them too early. -/
theorem C18_complex_violated :
    ∃ a b c rest, a.validity = ok () ∧ b.validity = ok () ∧ mergeable true a b = true ∧
      a.toList = ok [.atom (.real 3), .atom (.real 4)] ∧ b.toList = ok [.atom (.complex 5 6)] ∧
      merge a b = ok c ∧
      c.toList = ok (.atom (.complex 3 0) :: .atom (.complex 5 6) :: rest) :=
  ⟨reals [3, 4], .numpy {} .complex128 [.complex 5 6], _, _, rfl, rfl, by decide +kernel, rfl, rfl, rfl,
    rfl⟩

/-- C18 fails for three arrays of which only the neighbours are mergeable: `ak.concatenate` raises
for numbers, an empty array of unknown type and lists, although it accepts numbers and lists. -/
theorem C18_neighbours_violated :
    ∃ a b c, a.validity = ok () ∧ b.validity = ok () ∧ c.validity = ok () ∧
      (∃ e, concatenate0 never true false [a, b, c] = err e) ∧
      (∃ r, concatenate0 never true false [a, c] = ok r) :=
  ⟨ints [1], .empty {}, .listOffset {} [0, 1] (ints [2]), rfl, rfl, rfl, ⟨_, rfl⟩, ⟨_, rfl⟩⟩

/-- C18 fails for tuples, an empty array and records: the records become tuples. -/
theorem C18_record_to_tuple_violated :
    ∃ a b c r, a.validity = ok () ∧ b.validity = ok () ∧ c.validity = ok () ∧
      c.toList = ok [.record [("x", .atom (.int 2))]] ∧
      concatenate0 never true false [a, b, c] = ok r ∧
      r.toList = ok [.tuple [.atom (.int 1)], .tuple [.atom (.int 2)]] :=
  ⟨.record {} none [ints [1]] 1, .empty {}, .record {} (some ["x"]) [ints [2]] 1, _,
    rfl, rfl, rfl, rfl, rfl, rfl⟩

/-- C23 fails for missing values inside of elements that may be missing themselves: they stay. -/
theorem C23_nested_violated :
    ∃ c r, c.validity = ok () ∧
      c.toList = ok [.list [.atom (.int 5), .null], .null] ∧
      fillna never (ints [9]) c = ok r ∧
      r.toList = ok [.list [.atom (.int 5), .null], .atom (.int 9)] :=
  ⟨.indexedOption {} [0, -1] (.listOffset {} [0, 2] (.indexedOption {} [0, -1] (ints [5]))), _,
    rfl, rfl, rfl, rfl⟩

end Examples

end Props
end Awk
