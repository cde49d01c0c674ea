import Verif.Model.Firsts
import Verif.Props.List
import Verif.Props.Getitem
import Verif.Props.Zip
import Verif.Props.Apply
import Verif.Lemmas.Strided
/-
C77: `ak.firsts`.
-/

namespace Awk
open R Content Spec

/-- The first item of a list; missing if there is none. -/
def Val.firstItem (v : Val) : Val := v.items.headD .null

namespace Content

theorem range_listNode {c c' : Content} (hl : c.isListNode = true) {a b : Int} (h : c.range a b = ok c') :
    c'.isListNode = true ∧ ∀ p d size zeros, c' = regular p d size zeros →
      ∃ p d zeros, c = regular p d size zeros := by
  cases c <;> simp only [isListNode, Bool.false_eq_true] at hl
  case regular p d size zeros =>
    simp only [Content.range, bind_eq_ok, ok.injEq] at h
    obtain ⟨e, _, rfl⟩ := h
    refine ⟨rfl, fun p' d' size' zeros' he => ?_⟩
    simp only [regular.injEq] at he
    obtain ⟨_, _, rfl, _⟩ := he
    exact ⟨_, _, _, rfl⟩
  case listArray p s t d =>
    simp only [Content.range, bind_eq_ok, ok.injEq] at h
    obtain ⟨_, _, _, _, rfl⟩ := h
    exact ⟨rfl, fun p' d' size' zeros' he => by cases he⟩
  case listOffset p o d =>
    simp only [Content.range, bind_eq_ok, ok.injEq] at h
    obtain ⟨_, _, rfl⟩ := h
    exact ⟨rfl, fun p' d' size' zeros' he => by cases he⟩

theorem num_listNode {c d : Content} (hl : c.isListNode = true) (h : c.num 1 = ok (.array d)) :
    ∃ ns, d = intArray ns := by
  simp only [num, Nat.one_ne_zero, if_false, bind_eq_ok, ok.injEq, NumResult.array.injEq] at h
  obtain ⟨d', h, rfl⟩ := h
  cases hr : c.rank with
  | zero => rw [hr] at h; simp [numF] at h
  | succ f =>
    rw [hr] at h
    cases c <;> simp only [isListNode, Bool.false_eq_true] at hl <;>
      simp only [numF, if_true, bind_eq_ok, ok.injEq] at h <;>
      (obtain ⟨ns, _, rfl⟩ := h; exact ⟨ns, rfl⟩)

theorem pySlice_all (vs : List Val) : pySlice vs none none 1 = vs := by
  have := Nd.pySlice_get (vs := vs) (start := none) (stop := none) (step := 1) (by decide)
  apply List.ext_getElem
  · rw [this.1, Nd.fullRange]; simp
  · intro i h1 h2
    obtain ⟨_, e⟩ := this.2 i h1 (by rw [← this.1]; exact h1)
    rw [e]
    simp [Nd.fullRange]

theorem listNode_isList {c : Content} (h : c.Good) (hl : c.isListNode = true) {i : Nat} (hi : i < c.len) :
    (c.valD i).isList = true := by
  cases c <;> simp only [isListNode, Bool.false_eq_true] at hl
  case regular p c size zeros => rw [valD_regular (good_regular.mp h) hi]; simp
  case listArray p starts stops c =>
    have := (good_listArray.mp h).1
    simp only [len] at hi
    rw [valD_listArray h hi (by omega)]; simp
  case listOffset p offsets c =>
    simp only [len] at hi
    rw [valD_listOffset h (by omega)]; simp

theorem mapM_some {α β : Type} {f : α → Option β} {g : α → β} {l : List α} (h : ∀ x ∈ l, f x = some (g x)) :
    l.mapM f = some (l.map g) := by
  induction l with
  | nil => rfl
  | cons x l ih =>
    rw [List.mapM_cons, h x (by simp), ih (fun y hy => h y (by simp [hy]))]
    rfl

/-- `firsts` of the outermost lists. -/
theorem firstsAt_one {fuel : Nat} {c : Content} (hf : 2 ≤ fuel) (hg : c.Good) (hl : c.isListNode = true)
    (hr : ∀ p d zeros, c ≠ regular p d 0 zeros) {vs : List Val} (hvs : c.toList = ok vs)
    (hn : vs.length < 2 ^ 63 - 1) :
    ∃ it, c.firstsAt fuel 1 = ok it ∧ ∃ v, it.toVal = ok v ∧ Alike v (.list (vs.map Val.firstItem)) := by
  obtain ⟨k, k1, k2⟩ := Props.num_maps hg (Nat.le_refl 1) (.here hl) (.inl rfl)
  replace k2 := toList_maps hg k2 hvs
  obtain ⟨ns, rfl⟩ := num_listNode hl k1
  have hvl : vs.length = c.len := by
    rw [hg.toList] at hvs
    simp only [ok.injEq] at hvs
    rw [← hvs]; simp
  have hvi : ∀ i (hi : i < vs.length), vs[i] = c.valD i := by
    rw [hg.toList] at hvs
    simp only [ok.injEq] at hvs
    subst hvs
    intro i hi; simp
  have hnotnull : ∀ v ∈ vs, v.isList = true := by
    intro v hvm
    obtain ⟨i, hi, rfl⟩ := List.mem_iff_getElem.mp hvm
    rw [hvi i hi]
    exact listNode_isList hg hl (by omega)
  rw [show vs.map (Val.mapAxis false Val.count 1) = vs.map (fun v =>
      if v.isNull then .null else .atom (.int v.items.length)) from
    List.map_congr_left (fun v hv => by rw [Props.mapAxis_one_list (.inr (hnotnull v hv))]; rfl)] at k2
  have hns : ns = vs.map (fun v => (v.items.length : Int)) := by
    rw [(good_intArray ns).toList] at k2
    simp only [ok.injEq, len_intArray] at k2
    apply List.ext_getElem
    · simpa using congrArg List.length k2
    · intro i h1 h2
      simp only [List.length_map] at h2
      have := congrArg (fun l => l[i]?) k2
      simp only [List.getElem?_map, List.getElem?_range h1, List.getElem?_eq_getElem h2, Option.map_some,
        Option.some.injEq, valD_intArray h1] at this
      have hl := hnotnull _ (List.getElem_mem h2)
      have hnn : vs[i].isNull = false := by
        revert hl
        cases vs[i] <;> simp [Val.isList, Val.isNull]
      rw [hnn] at this
      simpa using this
  subst hns
  -- the booleans
  obtain ⟨m, m1, m2, data, rfl⟩ := elementwise_flat_numpy positive .bool (n := vs.length) (show 1 ≤ fuel by omega)
    [(({} : Params), DType.int64, (vs.map (fun v => (v.items.length : Int))).map Atom.int)] (by simp) (by simp)
  have hdata : data = vs.map (fun v : Val => Atom.bool (decide (v.items ≠ []))) := by
    rw [(good_numpy _ _ _).toList] at m2
    simp only [ok.injEq] at m2
    have hdl : data.length = vs.length := by simpa [len] using congrArg List.length m2
    apply List.ext_getElem
    · simpa using hdl
    · intro i h1 h2
      simp only [List.length_map] at h2
      have := congrArg (fun l => l[i]?) m2
      simp only [len, List.getElem?_map, List.getElem?_range h1, List.getElem?_range h2, Option.map_some,
        Option.some.injEq, valD_numpy h1, Val.atom.injEq, List.map_cons, List.map_nil,
        List.getElem?_eq_getElem h2, Option.getD_some, positive] at this
      rw [this, List.getElem_map]
      congr 1
      cases vs[i].items <;> simp <;> omega
  subst hdata
  have m1' : elementwise positive .bool fuel [intArray (vs.map (fun v => (v.items.length : Int)))]
      = ok (.array (numpy {} .bool (vs.map (fun v : Val => Atom.bool (decide (v.items ≠ [])))))) := m1
  obtain ⟨out, o1, o2, o3, c', o, o4, o5, o6⟩ := mask_flat_parts (validWhen := true) (p := {})
    (data := vs.map (fun v : Val => Atom.bool (decide (v.items ≠ [])))) hf hg hvl.symm (by simp) hn
  obtain ⟨l1, l2⟩ := range_listNode hl o4
  have hso : o = byteMasked {} ((vs.map (fun v : Val => Atom.bool (decide (v.items ≠ [])))).map
      (fun a => if a = .bool true then (1 : Int) else 0)) true c' := by
    have hno : c'.isOptionOrIndexed = false := by
      cases c' <;> first | rfl | cases l1
    simp only [simplifyOption, hno, Bool.false_eq_true, if_false, ok.injEq] at o5
    exact o5.symm
  subst hso
  simp only [Content.range, bind_eq_ok, ok.injEq] at o6
  obtain ⟨mask', _, c'', o6, rfl⟩ := o6
  obtain ⟨l3, l4⟩ := range_listNode l1 o6
  have hfit : ∀ b, FitsTop b 0 [.range none none 1, .at 0] (byteMasked {} mask' true c'') := by
    intro b
    refine ⟨⟨by simp [GoodArg], by simp [GoodArg], by decide, by decide⟩, .option (by simp) rfl (fun d hd => ?_)⟩
    simp only [children, List.mem_singleton] at hd
    subst hd
    refine .list l3 trivial rfl (fun _ p d size zeros he => ?_) (fun d _ => .nil)
    obtain ⟨p1, d1, z1, he⟩ := l4 _ _ _ _ he
    obtain ⟨p2, d2, z2, he⟩ := l2 _ _ _ _ he
    have : size ≠ 0 := by rintro rfl; exact hr _ _ _ he
    simp only [SizeOk, regAt]
    simp
    omega
  have hseg : (byteMasked {} mask' true c'').seg 0 (byteMasked {} mask' true c'').len
      = vs.map (fun v => if v.items ≠ [] then v else .null) := by
    have := seg_all o3
    rw [o2] at this
    simp only [ok.injEq] at this
    rw [← this]
    apply List.ext_getElem
    · simp
    · intro i h1 h2
      simp only [List.length_map, List.length_range] at h1 h2
      simp only [List.getElem_map, List.getElem_range, List.getElem?_map, List.getElem?_eq_getElem h1,
        Option.map_some, Option.getD_some, ← hvi i h1]
      by_cases he : vs[i].items = [] <;> simp [he]
  have hsel : select [.range none none 1, .at 0] none (.list (vs.map (fun v => if v.items ≠ [] then v else .null)))
      = some (.list (vs.map Val.firstItem)) := by
    simp only [select, selItem, selList, pySlice_all]
    rw [mapM_some (g := Val.firstItem)]
    · rw [Option.map_some, List.map_map]
      congr 2
      refine List.map_congr_left (fun v hv => ?_)
      by_cases he : v.items = []
      · have h0 : Val.firstItem .null = .null := rfl
        simp [he, h0]
        simp [Val.firstItem, he]
      · simp [he]
    · intro v hv
      obtain ⟨u, hu, rfl⟩ := List.mem_map.mp hv
      have := hnotnull u hu
      by_cases he : u.items = []
      · have h0 : Val.firstItem .null = .null := rfl
        simp [he, selItem, h0]
      · rw [if_pos he]
        cases u <;> simp only [Val.isList, Bool.false_eq_true] at this <;>
          simp only [Val.items] at he <;> rename_i xs <;> cases xs <;>
          simp_all [selItem, selList, pyGet?, Val.firstItem, Val.items, select]
  have T := getitem_tot o3 (hfit false)
  rw [hseg, hsel] at T
  obtain ⟨it, hi⟩ := T.2 ⟨hfit true, rfl⟩
  have hT := T.1
  rw [hi] at hT
  obtain ⟨v, w, t1, t2, t3⟩ := hT
  simp only [Option.some.injEq] at t2
  subst t2
  refine ⟨it, ?_, v, t1, t3⟩
  unfold firstsAt
  rw [k1, bind_ok]
  simp only
  rw [m1', bind_ok]
  simp only
  rw [o1, bind_ok]
  exact hi

end Content

namespace Props

/-- **C77.** `firsts(array)` of an array of lists has the first item of every list that is not empty, and `None` for
every empty list. (`Shows`: as in C13, the characters of strings may be shown as text.)

Partial: arrays whose lists can be missing, deeper axes (`C77_sliced_violated`), and lists of the fixed size 0
(`C77_regular_violated`). -/
theorem C77_firsts_partial (fuel : Nat) (hf : 2 ≤ fuel) (axis : Int) (c : Content) (hv : c.validity = ok ())
    (ha : c.axisWrap axis = ok 1) (hl : c.isListNode = true) (hr : ∀ p d zeros, c ≠ regular p d 0 zeros)
    (vs : List Val) (hvs : c.toList = ok vs) (hn : vs.length < 2 ^ 63 - 1) :
    ∃ it, c.firsts fuel axis = ok it ∧ Shows it (.list (vs.map Val.firstItem)) := by
  obtain ⟨it, h1, h2⟩ := firstsAt_one hf (good_of_validity hv) hl hr hvs hn
  refine ⟨it, ?_, h2⟩
  unfold firsts
  rw [ha, bind_ok, if_neg (by omega), if_neg (by omega)]
  exact h1

/-- **C77, axis 0.** `firsts(array, axis=0)` is the first element of the array, or `None` if it has none. -/
theorem C77_axis0 (fuel : Nat) (axis : Int) (c : Content) (hv : c.validity = ok ())
    (ha : c.axisWrap axis = ok 0) (vs : List Val) (hvs : c.toList = ok vs) :
    ∃ it, c.firsts fuel axis = ok it ∧ it.toVal = ok (vs.headD .null) := by
  unfold firsts
  rw [ha, bind_ok, if_pos rfl]
  have hlen : vs.length = c.len := by
    rw [(good_of_validity hv).toList] at hvs
    simp only [ok.injEq] at hvs
    rw [← hvs]; simp
  by_cases hz : c.len = 0
  · rw [if_pos hz]
    have : vs = [] := List.length_eq_zero_iff.mp (by omega)
    subst this
    exact ⟨_, rfl, rfl⟩
  · rw [if_neg hz]
    have := C08_getitem_at c hv vs hvs 0
    cases vs with
    | nil => simp at hlen; omega
    | cons v vs => simpa [pyGet?] using this

/-- **C77, inverse.** `firsts(singletons(array))` is the array again, with the same values and the same missing
values. -/
theorem C77_singletons (fuel : Nat) (hf : 2 ≤ fuel) (c : Content) (hv : c.validity = ok ()) (ho : c.isOption = true)
    (h1 : AllNodes OnceUnion c) (vs : List Val) (hvs : c.toList = ok vs) (hn : vs.length < 2 ^ 63 - 1) :
    ∃ d it, c.singletons = ok d ∧ d.firsts fuel 1 = ok it ∧ Shows it (.list vs) := by
  have hg := good_of_validity hv
  obtain ⟨d, g1, g2⟩ := singletons_ok hg (once_of_validity hv h1) (.here ho)
  have hd := toList_maps hg g2 hvs
  have hshape : ∃ o e, d = listOffset {} o e := by
    unfold singletons at g1
    cases c <;> simp only [isOption, Bool.false_eq_true] at ho <;>
      simp only [apply, singletonsGet, bind_assoc, bind_eq_ok, ok.injEq, bind_ok, custom] at g1 <;>
      (obtain ⟨_, _, _, _, rfl⟩ := g1; exact ⟨_, _, rfl⟩)
  obtain ⟨o, e, rfl⟩ := hshape
  obtain ⟨it, h2, h3⟩ := firstsAt_one hf g2.good rfl (fun _ _ _ h => by cases h) hd (by simpa using hn)
  refine ⟨_, it, g1, ?_, ?_⟩
  · unfold firsts
    rw [show axisWrap _ 1 = ok 1 from rfl, bind_ok, if_neg (by omega), if_neg (by omega)]
    exact h2
  · rw [List.map_map] at h3
    rw [show vs.map (Val.firstItem ∘ Val.mapDepth Val.singleton 0) = vs from by
      conv => rhs; rw [← List.map_id vs]
      refine List.map_congr_left (fun v _ => ?_)
      simp only [Function.comp_apply, Val.mapDepth, Val.singleton, Val.firstItem, Val.items, id]
      by_cases hn : v.isNull = true
      · rw [if_pos hn]
        cases v <;> first | rfl | cases hn
      · rw [if_neg hn]; rfl] at h3
    exact h3

/-- `[[1, 2], [], [3]]` within a larger content. -/
def firstsExample : Content := listArray {} [1, 0, 4] [3, 0, 5] (intArray [9, 1, 2, 9, 3])

example : firstsExample.validity = ok () ∧ firstsExample.axisWrap (-1) = ok 1 ∧ firstsExample.isListNode = true :=
  ⟨rfl, rfl, rfl⟩

example : (firstsExample.firsts 2 (-1) >>= Item.toVal) = ok (.list [.atom (.int 1), .null, .atom (.int 3)]) :=
  R.gives (by decide +kernel)

example : ((indexedOption {} [1, -1, 0] (intArray [7, 8])).singletons >>= fun d => d.firsts 2 1 >>= Item.toVal)
    = ok (.list [.atom (.int 8), .null, .atom (.int 7)]) := R.gives (by decide +kernel)

example : (indexedOption {} [1, -1, 0] (intArray [7, 8])).validity = ok () ∧
    AllNodes OnceUnion (indexedOption {} [1, -1, 0] (intArray [7, 8])) := by
  refine ⟨rfl, .mk (fun _ d hd => ?_) fun d hd => ?_⟩ <;> cases List.mem_singleton.mp hd
  · intro h; cases h
  exact .mk (fun h => by cases h) fun d hd => by cases hd

/-- **C77 is violated** for lists of the fixed size 0: all lists are empty, but instead of `None` for each of them
an "index out of range" is raised. -/
theorem C77_regular_violated :
    (regular {} (intArray []) 0 2).validity = ok () ∧ (regular {} (intArray []) 0 2).toList = ok [.list [], .list []] ∧
      ((regular {} (intArray []) 0 2).firsts 9 1).IsErr := ⟨rfl, rfl, R.raises (by decide +kernel)⟩

/-- **C77 is violated** at deeper axes of sliced arrays: `firsts([[[4, 5, 6]]], axis=2)` is `[[None]]` if the
array is the rest of a larger one, because `num` measures lists that are not part of the array (C48). -/
theorem C77_sliced_violated : ∃ c : Content, c.validity = ok () ∧
    c.toList = ok [.list [.list [.atom (.int 4), .atom (.int 5), .atom (.int 6)]]] ∧
    (c.firsts 9 2 >>= Item.toVal) = ok (.list [.list [.null]]) :=
  ⟨listOffset {} [2, 3] (listOffset {} [0, 0, 0, 3] (intArray [4, 5, 6])), rfl, rfl,
    R.gives (by decide +kernel)⟩

end Props
end Awk
