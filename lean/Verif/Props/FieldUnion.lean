import Verif.Lemmas.FieldUnion
import Verif.Props.Fields
import Verif.Props.Merge
/-
C31 and C87 for unions.
-/

namespace Awk.Props
open R Content

/-- **C31, unions (partial).** Selecting fields from a union of arrays that have these fields does not raise and shows
the selected fields of every element (as values: numbers compare as numbers, records as sets of fields). Missing:
more than 127 alternatives, and selected fields that cannot be merged (see C17). -/
theorem C31_union_partial (same : Content → Content → Bool) (hsame : ∀ a b, same a b = true → a = b)
    (no : Without) (hu : no.union) (hno : no.indexed ∨ no.option) (p : Params) (tags index : List Int)
    (cs : List Content) (h : (union p tags index cs).validity = ok ()) (vs : List Val)
    (hv : (union p tags index cs).toList = ok vs) (s : FieldSel) (ss : List FieldSel) (hl : cs.length ≤ 127)
    (hf : ∀ c ∈ cs, HasFields (s :: ss) c)
    (hn : ∀ c ∈ cs, ∀ c', projectFields same (s :: ss) c = ok c' → AllNodes (MergeNode no) c') :
    ∃ d ws, projectFields same (s :: ss) (union p tags index cs) = ok d ∧ d.toList = ok ws ∧
      ws.map Val.canon = vs.map (fun v => (Val.project (s :: ss) v).canon) := by
  have hg := good_of_validity h
  obtain ⟨_, hc, _⟩ := good_union.mp hg
  obtain ⟨cs', h1, h2, h3⟩ := getitemFieldsAll_ok (same := same) (s := s) (k := projectFields same ss)
    (F := Val.project (s :: ss)) (φ := fun c' => Input no c') (cs := cs) (fun c hm => by
      obtain ⟨c', g1, g2⟩ := projectFields_ok same (s :: ss) (hc c hm) (hf c hm)
      exact ⟨c', g1, g2.toMaps, g2.toMaps.1, hn c hm c' g1⟩)
  have hm := MapsG.union (p' := {}) hg h2
  have hs : ∀ c ∈ cs', c.alts = [c] := by
    intro c hc'
    have := (h3 c hc').nodes.here
    cases c <;> first | rfl | exact absurd hu this
  have ha : ∀ ds : List Content, (∀ c ∈ ds, c.alts = [c]) → (ds.flatMap alts).length = ds.length := by
    intro ds
    induction ds with
    | nil => intros; rfl
    | cons d ds ih =>
      intro hd
      rw [List.flatMap_cons, List.length_append, ih (fun c hc => hd c (by simp [hc])), hd d (by simp)]
      simp only [List.length_cons, List.length_nil]
      omega
  have key := simplifyUnion_ok (mb := false) (domerge := true) hsame (fun _ => hno) hm.toMaps.1 (no := no) (by
    intro c hc' d hd
    rw [hs c hc', List.mem_singleton] at hd
    subst hd
    exact h3 _ hc')
  obtain ⟨d, hd⟩ := key.2 ⟨hu, by rw [ha cs' hs, ← h2.length_eq]; exact hl⟩
  have hsat := key.1
  rw [hd, sat_ok] at hsat
  obtain ⟨k1, k2⟩ := hsat
  have hv' := toList_maps hg hm hv
  rw [cv_toList hm.toMaps.1 hv'] at k2
  obtain ⟨ws, w1, w2⟩ := toList_cv k1 k2
  refine ⟨d, ws, ?_, w1, by rw [w2, List.map_map]; rfl⟩
  show getitemFields same s (projectFields same ss) (union p tags index cs) = ok d
  rw [getitemFields, h1, bind_ok, hd]

/-- **C87, unions (partial).** `array[name]` does not raise for any name that `fields(array)` lists for a union, and
shows the field of that name of every element (as values). Missing: as for `C31_union_partial`. -/
theorem C87_select_union_partial (same : Content → Content → Bool) (hsame : ∀ a b, same a b = true → a = b)
    (no : Without) (hu : no.union) (hno : no.indexed ∨ no.option) (p : Params) (tags index : List Int)
    (cs : List Content) (h : (union p tags index cs).validity = ok ()) (vs : List Val)
    (hv : (union p tags index cs).toList = ok vs) (hl : cs.length ≤ 127)
    (hk : ∀ c ∈ cs, AllNodes KeyedNode c) (hb : ∀ c ∈ cs, AllNodes BareNode c) (key : String)
    (hf : key ∈ (union p tags index cs).fieldNames)
    (hn : ∀ c ∈ cs, ∀ c', projectFields same [.one key] c = ok c' → AllNodes (MergeNode no) c') :
    ∃ d ws, projectFields same [.one key] (union p tags index cs) = ok d ∧ d.toList = ok ws ∧
      ws.map Val.canon = vs.map (fun v => (Val.project [.one key] v).canon) := by
  refine C31_union_partial same hsame no hu hno p tags index cs h vs hv (.one key) [] hl (fun c hc => ?_) hn
  simp only [fieldNames, fieldNamesAll_eq, mem_unionKeys] at hf
  exact fieldNames_hasFields c (hk c hc) (hb c hc) (hf.2 _ (List.mem_map_of_mem hc))

/-- No unions, indexes, options and complex numbers. -/
def plainMerge : Without := ⟨True, True, True, False⟩

/-- Records of integers and records of an integer and a real number, with the common field `x`. -/
def recordsUnion : Content :=
  union {} [0, 1, 0] [1, 0, 0]
    [record {} (some ["x", "y"]) [intArray [1, 2], intArray [3, 4]] 2,
     record {} (some ["z", "x"]) [intArray [5], numpy {} .float64 [.real 6]] 1]

example : recordsUnion.validity = ok () ∧ recordsUnion.fieldNames = ["x"] ∧
    (projectFields (fun _ _ => false) [.one "x"] recordsUnion >>= Content.toList) =
      ok [.atom (.real 2), .atom (.real 6), .atom (.real 1)] :=
  ⟨rfl, by decide +kernel, R.lists (by decide +kernel)⟩

example (c : Content) (hc : c ∈ recordsUnion.children) (c' : Content)
    (h : projectFields (fun _ _ => false) [.one "x"] c = ok c') : AllNodes (MergeNode plainMerge) c' := by
  simp only [recordsUnion, children, List.mem_cons, List.not_mem_nil, or_false] at hc
  have hx : ∀ d data, d = .int64 ∨ d = .float64 → AllNodes (MergeNode plainMerge) (numpy {} d data) := by
    intro d data hd
    refine .mk ⟨by simp, fun _ _ => ?_⟩ (by simp [children])
    rcases hd with rfl | rfl <;> simp [plainMerge]
  rcases hc with rfl | rfl
  · have h' : projectFields (fun _ _ => false) [.one "x"]
        (record {} (some ["x", "y"]) [intArray [1, 2], intArray [3, 4]] 2) = ok (intArray [1, 2]) := rfl
    rw [h'] at h; cases h; exact hx _ _ (Or.inl rfl)
  · have h' : projectFields (fun _ _ => false) [.one "x"]
        (record {} (some ["z", "x"]) [intArray [5], numpy {} .float64 [.real 6]] 1) = ok (numpy {} .float64 [.real 6]) := rfl
    rw [h'] at h; cases h; exact hx _ _ (Or.inr rfl)

end Awk.Props
