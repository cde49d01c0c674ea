import Verif.Lemmas.FieldItem
import Verif.Props.Getitem
/-
Property theorems C31 and C52: selecting fields of records by name.
-/

namespace Awk.Props
open Awk R Spec Content

/-- **C31.** Selecting fields of an array selects these fields of every record that `to_list` shows,
with the values they have there, whatever the other fields are; lists and missing values stay as
they are. Missing from the full property, here and below: unions. -/
theorem C31_project_partial (same : Content → Content → Bool) (c : Content)
    (h : c.validity = ok ()) (vs : List Val) (hv : c.toList = ok vs) (ss : List FieldSel)
    (hf : HasFields ss c) :
    ∃ c', projectFields same ss c = ok c' ∧ c'.toList = ok (vs.map (Val.project ss)) := by
  obtain ⟨hg, rfl⟩ := shows_seg h hv
  obtain ⟨c', h1, h2⟩ := projectFields_ok same ss hg hf
  refine ⟨c', h1, ?_⟩
  rw [seg_all h2.good, h2.exact trivial, h2.toMaps.seg (by omega)]

/-- **C31.** `array[name][i]` and `array[i][name]` show the same, for every `i` in range such that
`array[i]` is not None (up to whether a list of characters is shown as text). -/
theorem C31_at_partial (same : Content → Content → Bool) (c : Content) (h : c.validity = ok ())
    (s : FieldSel) (hf : HasFields [s] c) (i : Int) (it : Item) (hi : c.getitemAt i = ok it)
    (hn : it ≠ .none) :
    ∃ c' it₁ it₂ v₁ v₂, projectFields same [s] c = ok c' ∧ c'.getitemAt i = ok it₁ ∧
      it.getitemFields same s = ok it₂ ∧ it₁.toVal = ok v₁ ∧ it₂.toVal = ok v₂ ∧ Alike v₁ v₂ := by
  have hg := good_of_validity h
  obtain ⟨c', h1, h2⟩ := projectFields_ok same [s] hg hf
  have hl := h2.exact trivial
  have key : ∀ k : Int, (if ¬ (0 ≤ k ∧ k < c.len) then err "index out of range"
      else c.getitemAtNowrap k.toNat) = ok it → ∃ it₁ it₂ v₁ v₂,
      (if ¬ (0 ≤ k ∧ k < c'.len) then err "index out of range" else c'.getitemAtNowrap k.toNat) = ok it₁ ∧
      it.getitemFields same s = ok it₂ ∧ it₁.toVal = ok v₁ ∧ it₂.toVal = ok v₂ ∧ Alike v₁ v₂ := by
    intro k hk
    rw [hl]
    by_cases hb : 0 ≤ k ∧ k < c.len
    · rw [if_neg (by omega)] at hk ⊢
      obtain ⟨it', g1, g2⟩ := getitemAtNowrap_fields same hg hf (i := k.toNat) (by omega)
      rw [g1, ok.injEq] at hk
      subst hk
      rcases g2 with ⟨g2, _⟩ | ⟨it₂, v₂, e1, e2, e3⟩
      · exact absurd g2 hn
      · obtain ⟨it₁, v₁, f1, f2, f3⟩ := getitemAtNowrap_good h2.good (i := k.toNat) (by omega)
        refine ⟨it₁, it₂, v₁, v₂, f1, e1, f2, e2, ?_⟩
        rw [h2.val _ (by omega)] at f3
        rcases f3 with rfl | ⟨a1, a2, a3⟩
        · rcases e3 with rfl | ⟨b1, b2, b3⟩
          · exact .inl rfl
          · exact .inr ⟨b2, b1, b3.symm⟩
        · rcases e3 with rfl | ⟨b1, b2, b3⟩
          · exact .inr ⟨a1, a2, a3⟩
          · exact .inr ⟨a1, b1, a3.trans b3.symm⟩
    · rw [if_pos hb] at hk
      cases hk
  obtain ⟨it₁, it₂, v₁, v₂, g⟩ := key _ hi
  have hlz : (c'.len : Int) = c.len := by rw [hl]
  exact ⟨c', it₁, it₂, v₁, v₂, h1, by unfold getitemAt; simp only [hlz] at g ⊢; exact g.1, g.2⟩

/-- **C31.** `array[names][start:stop]` and `array[start:stop][names]` show the same: the range of
the selected fields. -/
theorem C31_range_partial (same : Content → Content → Bool) (c : Content)
    (h : c.validity = ok ()) (vs : List Val) (hv : c.toList = ok vs) (ss : List FieldSel)
    (hf : HasFields ss c) (start stop : Option Int) (hstart : GoodArg start)
    (hstop : GoodArg stop) :
    ∃ c₁ c₂ d₁ d₂,
      c.getitemRange (sliceArg start) (sliceArg stop) = ok c₁ ∧ projectFields same ss c₁ = ok c₂ ∧
      projectFields same ss c = ok d₁ ∧ d₁.getitemRange (sliceArg start) (sliceArg stop) = ok d₂ ∧
      c₂.toList = ok (pySlice (vs.map (Val.project ss)) start stop 1) ∧
      d₂.toList = ok (pySlice (vs.map (Val.project ss)) start stop 1) := by
  obtain ⟨hg, rfl⟩ := shows_seg h hv
  have cut : ∀ {d : Content}, d.Good → ∃ d', d.getitemRange (sliceArg start) (sliceArg stop) = ok d' ∧
      d'.Good ∧ d'.seg 0 d'.len = pySlice (d.seg 0 d.len) start stop 1 ∧
      ∀ ss, HasFields ss d → HasFields ss d' := by
    intro d hd
    obtain ⟨a, b, h1, h2, h3, h4⟩ := pySlice_one (d.seg 0 d.len) start stop
    simp only [Content.seg, List.length_map, List.length_range] at h2
    obtain ⟨d', g1, g2, _, g4, _⟩ := range_good hd h1 h2
    refine ⟨d', ?_, g2, ?_, fun ss hs => HasFields.range g1 _ hs⟩
    · unfold Content.getitemRange
      have hlen : (d.len : Int) = ((d.seg 0 d.len).length : Int) := by simp [Content.seg]
      rw [hlen, regularize_pos hstart hstop (by omega) (by omega : (0:Int) < 1), ← h3]
      exact g1
    · rw [h4, g4.1]
      apply List.ext_getElem?
      intro k
      simp only [Content.seg, List.getElem?_map, List.getElem?_drop, List.getElem?_take,
        Nat.zero_add]
      by_cases hk : k < b - a
      · rw [List.getElem?_range hk]
        simp [hk, List.getElem?_range (show a + k < d.len by omega), g4.valD hk]
      · simp [hk]
  obtain ⟨c₁, a1, a2, a3, a4⟩ := cut hg
  obtain ⟨c₂, b1, b2⟩ := projectFields_ok same ss a2 (a4 ss hf)
  obtain ⟨d₁, e1, e2⟩ := projectFields_ok same ss hg hf
  obtain ⟨d₂, f1, f2, f3, _⟩ := cut e2.good
  have hm : d₁.seg 0 d₁.len = (c.seg 0 c.len).map (Val.project ss) := by
    rw [e2.exact trivial, e2.toMaps.seg (by omega)]
  refine ⟨c₁, c₂, d₁, d₂, a1, b1, e1, f1, ?_, ?_⟩
  · rw [seg_all b2.good, b2.exact trivial, b2.toMaps.seg (by omega), a3, pySlice_map]
  · rw [seg_all f2, f3, hm]

/-- **C31.** `array[names][[i, j, …]]` and `array[[i, j, …]][names]` show the same: the selected
fields of the elements at these positions. (`C12_mask_partial` says that a boolean selection is such
a list of positions.) -/
theorem C31_array_partial (same : Content → Content → Bool) (c : Content)
    (h : c.validity = ok ()) (vs : List Val) (hv : c.toList = ok vs) (ss : List FieldSel)
    (hf : HasFields ss c) (idx : List Int) (hne : idx ≠ []) (ws : List Val)
    (hw : idx.mapM (pyGet? vs) = some ws) :
    ∃ c₁ c₂ d₁ d₂,
      getitem [.array [idx.length] idx] c = ok (.array c₁) ∧ projectFields same ss c₁ = ok c₂ ∧
      projectFields same ss c = ok d₁ ∧ getitem [.array [idx.length] idx] d₁ = ok (.array d₂) ∧
      c₂.toList = ok (ws.map (Val.project ss)) ∧ d₂.toList = ok (ws.map (Val.project ss)) := by
  obtain ⟨hg, rfl⟩ := shows_seg h hv
  obtain ⟨c₁, a1, a2, a3, a4⟩ := getitem_array_fields hg hne hw
  obtain ⟨c₂, b1, b2⟩ := projectFields_ok same ss a2 (a4 ss hf)
  obtain ⟨d₁, e1, e2⟩ := projectFields_ok same ss hg hf
  have hm : d₁.seg 0 d₁.len = (c.seg 0 c.len).map (Val.project ss) := by
    rw [e2.exact trivial, e2.toMaps.seg (by omega)]
  have hw' : idx.mapM (pyGet? (d₁.seg 0 d₁.len)) = some (ws.map (Val.project ss)) := by
    rw [hm]
    clear a1 hne a3 a4
    induction idx generalizing ws with
    | nil => simp at hw ⊢; simp [← hw]
    | cons i idx ih =>
      simp only [List.mapM_cons, Option.bind_eq_bind, Option.bind_eq_some_iff, Option.pure_def,
        Option.some.injEq] at hw ⊢
      obtain ⟨x, hx, xs, hxs, rfl⟩ := hw
      exact ⟨_, by rw [pyGet?_map, hx]; rfl, _, ih xs hxs, rfl⟩
  obtain ⟨d₂, f1, f2, f3, _⟩ := getitem_array_fields e2.good hne hw'
  refine ⟨c₁, c₂, d₁, d₂, a1, b1, e1, f1, ?_, ?_⟩
  · rw [seg_all b2.good, b2.exact trivial, b2.toMaps.seg (by omega), a3]
  · rw [seg_all f2, f3]

/-- `[[{x: 1, y: {"0": "a"}}, None], [], [{x: 3, y: {"0": "bc"}}]]`: records with a number and a
tuple of one string, in lists, with missing records. -/
def exampleFields : Content :=
  .listOffset {} [0, 2, 2, 3] (.indexedOption {} [0, -1, 1]
    (.record {} (some ["x", "y"]) [.numpy {} .int64 [.int 1, .int 3],
      .record {} none [.listOffset { arr := .string } [0, 1, 3]
        (.numpy { arr := .char } .uint8 [.int 97, .int 98, .int 99])] 2] 2))

def textOf (l : List Int) : Val := .str (l.map (fun i => .atom (.int i)))

example : exampleFields.validity = ok () := by rfl
example : exampleFields.toList = ok [
    .list [.record [("x", .atom (.int 1)), ("y", .tuple [textOf [97]])], .null], .list [],
    .list [.record [("x", .atom (.int 3)), ("y", .tuple [textOf [98, 99]])]]] := by rfl
/-- The hypotheses hold for `array["y", "0"]`. -/
theorem exampleFields_path : HasFields [.one "y", .one "0"] exampleFields := by
  refine .list rfl rfl fun d hd => ?_
  obtain rfl := List.mem_singleton.mp hd
  refine .option rfl fun d hd => ?_
  obtain rfl := List.mem_singleton.mp hd
  refine .one (i := 1) ⟨by simp, by simp, fun j hj => ?_⟩ rfl ?_
  · obtain rfl : j = 0 := by omega
    simp
  · exact .one (i := 0) ⟨by simp, by decide, by norm_num⟩ rfl .nil
/-- The hypotheses hold for `array[["y", "x"]]`. -/
theorem exampleFields_names : HasFields [.many ["y", "x"]] exampleFields := by
  have h0 : Named (some ["x", "y"]) 2 "x" 0 := ⟨by simp, by simp, fun j hj => by omega⟩
  have h1 : Named (some ["x", "y"]) 2 "y" 1 := ⟨by simp, by simp, fun j hj => by
    obtain rfl : j = 0 := by omega
    simp⟩
  refine .list rfl rfl fun d hd => ?_
  obtain rfl := List.mem_singleton.mp hd
  refine .option rfl fun d hd => ?_
  obtain rfl := List.mem_singleton.mp hd
  refine .many (fun key hk => ?_) fun _ _ _ _ _ _ => .nil
  simp only [List.mem_cons, List.not_mem_nil, or_false] at hk
  rcases hk with rfl | rfl
  · exact ⟨1, _, h1, rfl⟩
  · exact ⟨0, _, h0, rfl⟩
example : (projectFields (fun _ _ => false) [.one "y", .one "0"] exampleFields >>= Content.toList) =
    ok [.list [textOf [97], .null], .list [], .list [textOf [98, 99]]] := by rfl
example : (projectFields (fun _ _ => false) [.many ["y", "x"]] exampleFields >>= Content.toList) =
    ok [.list [.record [("y", .tuple [textOf [97]]), ("x", .atom (.int 1))], .null], .list [],
      .list [.record [("y", .tuple [textOf [98, 99]]), ("x", .atom (.int 3))]]] := by rfl
example : (exampleFields.getitemAt (-1) >>= Item.getitemFields (fun _ _ => false) (.one "x") >>=
    Item.toVal) = ok (.list [.atom (.int 3)]) := by rfl

/-! ### Names that are not there -/

/-- **C52.** Selecting a name that begins with a letter, alone or in a list of names, returns no
array unless every record it is looked up in has a field of that name. Missing from the full
property: names that begin with digits (or white space or a sign and digits), for which it is false
(`C52_violated`). -/
theorem C52_partial (same : Content → Content → Bool) (c : Content) (key : String)
    (hk : ∃ a l, key.toList = a :: l ∧ a.isAlpha = true) (hl : Lacks key c) (s : FieldSel)
    (hs : s = .one key ∨ ∃ names, s = .many names ∧ key ∈ names) (ss : List FieldSel) :
    ∀ c', projectFields same (s :: ss) c ≠ ok c' := by
  have hrec : ∀ {keys : Option (List String)} {cs : List Content} {d : Content},
      (∀ ks, keys = some ks → key ∉ ks) → fieldOfKey keys cs key ≠ ok d := by
    intro keys cs d h hd
    obtain ⟨e, he⟩ := fieldIndex_unknown (n := cs.length) hk h
    simp only [fieldOfKey, he, bind_err] at hd
    cases hd
  have hrecord : ∀ {p keys cs length c'}, (∀ ks, keys = some ks → key ∉ ks) →
      projectFields same (s :: ss) (Content.record p keys cs length) ≠ ok c' := by
    intro p keys cs length c' h hc
    simp only [projectFields, getitemFields] at hc
    rcases hs with rfl | ⟨names, rfl, hm⟩
    · simp only [bind_eq_ok] at hc
      obtain ⟨d, hd, _⟩ := hc
      exact hrec h hd
    · simp only [bind_eq_ok] at hc
      obtain ⟨ds, hd, _⟩ := hc
      obtain ⟨d, hd⟩ := mapR_mem_ok hd hm
      simp only [bind_eq_ok] at hd
      obtain ⟨e, he, _⟩ := hd
      exact hrec h he
  induction hl with
  | empty => intro c' h; cases h
  | numpy => intro c' h; cases h
  | tuple => intro c'; exact hrecord (by simp)
  | record hn => intro c'; exact hrecord (by rintro ks ⟨⟩; exact hn)
  | @under c d hr hd _ ih =>
    intro c' h
    simp only [projectFields] at h ih
    cases c <;> simp only [children, List.mem_singleton, List.not_mem_nil] at hd
    case record p keys cs length => exact hr _ _ _ _ rfl
    case union p tags index cs =>
      simp only [getitemFields, bind_eq_ok] at h
      obtain ⟨ds, h, _⟩ := h
      obtain ⟨e, he⟩ := getitemFieldsAll_mem h hd
      exact ih e he
    all_goals
      subst hd
      simp only [getitemFields, bind_eq_ok] at h
      obtain ⟨e, he, _⟩ := h
      exact ih e he

/-- Records with two fields. -/
def exampleTwo : Content :=
  .record {} (some ["x", "y"]) [.numpy {} .int64 [.int 1], .numpy {} .int64 [.int 2]] 1

example : Lacks "z" exampleTwo := .record (by simp)
example : (projectFields (fun _ _ => false) [.one "z"] exampleTwo).IsErr := ⟨_, by rfl⟩

/-- **C52** for numbers: selecting field number `k` of records or tuples that have no more than `k`
fields, and none of that name, is an error. -/
theorem C52_number_partial (same : Content → Content → Bool) (p : Params)
    (keys : Option (List String)) (cs : List Content) (length k : Nat) (hk : k < 2 ^ 31)
    (hn : cs.length ≤ k) (h : ∀ ks, keys = some ks → toString k ∉ ks) (ss : List FieldSel) :
    (projectFields same (.one (toString k) :: ss) (Content.record p keys cs length)).IsErr ∧
      ∀ names, toString k ∈ names → ∀ c',
        projectFields same (.many names :: ss) (Content.record p keys cs length) ≠ ok c' := by
  have hf : fieldIndex keys (toString k) cs.length = err "key interpreted as fieldindex" := by
    have hb : keys.bind (fun ks => ks.findIdx? (fun x => x == toString k)) = none := by
      cases keys with
      | none => rfl
      | some ks =>
        simp only [Option.bind_some, List.findIdx?_eq_none_iff, beq_eq_false_iff_ne]
        intro x hx hxk
        exact h ks rfl (hxk ▸ hx)
    unfold fieldIndex
    rw [hb]
    simp only [stoi_toString hk, bind_ok]
    rw [if_pos (by omega)]
  refine ⟨⟨_, by simp only [projectFields, getitemFields, fieldOfKey, hf, bind_err]; rfl⟩, ?_⟩
  intro names hm c' hc
  simp only [projectFields, getitemFields, bind_eq_ok] at hc
  obtain ⟨cs', hc, _⟩ := hc
  obtain ⟨y, hy⟩ := mapR_mem_ok hc hm
  simp only [fieldOfKey, hf, bind_err] at hy
  cases hy

/-- `array["2"]` of pairs. -/
example : ∀ ks, (none : Option (List String)) = some ks → toString 2 ∉ ks := by simp

/-- **C52 fails** for names that begin with a number: `std::stoi` accepts them, and the number is
taken for the position of a field, also if the fields have names (util.cpp:505-535). `array["1st"]`
is `array["y"]`. -/
theorem C52_violated :
    exampleTwo.validity = ok () ∧ Lacks "1st" exampleTwo ∧
    (projectFields (fun _ _ => false) [.one "1st"] exampleTwo >>= Content.toList) =
      ok [.atom (.int 2)] :=
  ⟨by rfl, .record (by simp), by rfl⟩

end Awk.Props
