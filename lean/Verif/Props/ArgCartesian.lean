import Verif.Lemmas.ArgCartesian
/-
C88: `ak.argcartesian` with axis 0.
-/

namespace Awk.Props
open R Spec Content

/-- **C88.** `argcartesian` with axis 0 of any number of arrays of any lengths and types has one record of integers for
each choice of one position in every array, in the order of nested loops, and is a valid array. -/
theorem C88_argcartesian (p : Params) (hp : p.arr = .none) (keys : Option (List String)) (cs : List Content)
    (vss : List (List Val)) (hne : cs ≠ []) (hl : mapR toList cs = ok vss) :
    ∃ out, argCartesian0 p keys [] cs = ok out ∧ out.validity = ok () ∧
      out.toList = ok ((product (vss.map (fun vs => List.range vs.length))).map (pickOf keys)) := by
  have hne' : cs.map (fun c => intArray ((List.range c.len).map (fun (i : Nat) => (i : Int)))) ≠ [] := by simpa using hne
  have hv : ∀ d ∈ cs.map (fun c => intArray ((List.range c.len).map (fun (i : Nat) => (i : Int)))),
      d.validity = ok () := by
    intro d hd
    obtain ⟨c, _, rfl⟩ := List.mem_map.mp hd
    rfl
  obtain ⟨out, h1, h2⟩ := C71_cartesian p keys _ _ hne' hv (mapR_positions hl)
  refine ⟨out, by unfold argCartesian0; rw [mapR_localIndex, bind_ok, h1], ?_, ?_⟩
  · have h3 := cartesian_flat_valid hp (keys := keys) hne' hv (by
      intro d hd
      obtain ⟨c, _, rfl⟩ := List.mem_map.mp hd
      rfl)
    have h4 : ∀ (cs : List Content) (i : Nat) (r : Content), nestAll [] cs i r = ok r := by
      intro cs i r
      induction i with
      | zero => rfl
      | succ i ih => simpa [nestAll] using ih
    unfold cartesian0 at h1
    rw [h4] at h1
    cases h1
    exact h3
  · rw [h2]
    congr 1
    have : vss.map (fun vs => (List.range vs.length).map (fun (i : Nat) => Val.atom (.int i)))
        = (vss.map (fun vs => List.range vs.length)).map (List.map (fun (i : Nat) => Val.atom (.int i))) := by simp
    rw [this, product_map, List.map_map]
    rfl

/-- **C88.** The positions are those of the choices of `cartesian`: taking the elements at these positions gives the
records of `cartesian(arrays, axis=0)`, in the same order. -/
theorem C88_elements (p : Params) (keys : Option (List String)) (cs : List Content) (vss : List (List Val))
    (hne : cs ≠ []) (hv : ∀ c ∈ cs, c.validity = ok ()) (hl : mapR toList cs = ok vss) :
    ∃ (picks : List (List Nat)) (out out' : Content),
      argCartesian0 p keys [] cs = ok out ∧ out.toList = ok (picks.map (pickOf keys)) ∧
      (∀ t, t ∈ picks ↔ List.Forall₂ (fun i vs => i < vs.length) t vss) ∧
      cartesian0 p keys [] cs = ok out' ∧
      out'.toList = ok (picks.map (fun t => mkRecord keys (List.zipWith (fun vs i => vs[i]?.getD .null) vss t))) := by
  obtain ⟨out', h3, h4⟩ := C71_cartesian p keys cs vss hne hv hl
  have hne' : cs.map (fun c => intArray ((List.range c.len).map (fun (i : Nat) => (i : Int)))) ≠ [] := by simpa using hne
  have hvi : ∀ d ∈ cs.map (fun c => intArray ((List.range c.len).map (fun (i : Nat) => (i : Int)))),
      d.validity = ok () := by
    intro d hd
    obtain ⟨c, _, rfl⟩ := List.mem_map.mp hd
    rfl
  obtain ⟨out, h1, h2⟩ := C71_cartesian p keys _ _ hne' hvi (mapR_positions hl)
  refine ⟨product (vss.map (fun vs => List.range vs.length)), out, out',
    by unfold argCartesian0; rw [mapR_localIndex, bind_ok, h1], ?_, ?_, h3, ?_⟩
  · rw [h2]
    congr 1
    have : vss.map (fun vs => (List.range vs.length).map (fun (i : Nat) => Val.atom (.int i)))
        = (vss.map (fun vs => List.range vs.length)).map (List.map (fun (i : Nat) => Val.atom (.int i))) := by simp
    rw [this, product_map, List.map_map]
    rfl
  · intro t
    rw [product_mem, List.forall₂_map_right_iff]
    simp only [List.mem_range]
  · rw [h4, product_positions .null vss, List.map_map]
    rfl

/-- **C88 (partial), `nested=True`.** If no array but the first is empty, `nested=True` (for arrays that are not in a
dict) has one element for each position in the first array, in which lists for the second array contain lists for the
third, and so on. Missing: empty arrays after the first (`C88_nested_empty_violated`), dicts
(`C88_nested_dict_violated`) and other values of `nested`. -/
theorem C88_nested_partial (p : Params) (keys : Option (List String)) (cs : List Content) (vs : List Val)
    (vss : List (List Val)) (hl : mapR toList cs = ok (vs :: vss)) (hpos : ∀ ws ∈ vss, ws ≠ []) :
    ∃ out, argCartesian0 p keys (nestedTrue false cs.length) cs = ok out ∧
      out.toList = ok ((List.range vs.length).map (fun (i : Nat) => nestedProduct (mkRecord keys) [.atom (.int i)]
        (vss.map (fun ws => (List.range ws.length).map (fun (j : Nat) => .atom (.int j)))))) := by
  have h0 := mapR_positions hl
  simp only [List.map_cons] at h0
  obtain ⟨out, h1, h2⟩ := C71_nested_partial p keys _ _ _ (by
    intro d hd
    obtain ⟨c, _, rfl⟩ := List.mem_map.mp hd
    rfl) h0 (by
    intro ws hws
    obtain ⟨us, hu, rfl⟩ := List.mem_map.mp hws
    intro hcon
    have h := congrArg List.length hcon
    simp at h
    exact hpos us hu h)
  rw [List.length_map] at h1
  refine ⟨out, by unfold argCartesian0; rw [mapR_localIndex, bind_ok, h1], ?_⟩
  rw [h2, List.map_map]
  rfl

/-- The arrays `[1, None]` and `["ab", "c", ""]`. -/
def argArrays : List Content :=
  [indexedOption {} [0, -1] (intArray [1]),
   listOffset { arr := .string } [0, 2, 3, 3] (numpy { arr := .char } .uint8 [.int 97, .int 98, .int 99])]

example : (∀ c ∈ argArrays, c.validity = ok ()) ∧ ∃ vss, mapR toList argArrays = ok vss :=
  ⟨by simp only [argArrays, List.mem_cons, List.not_mem_nil, or_false, forall_eq_or_imp, forall_eq]; exact ⟨rfl, rfl⟩,
    _, rfl⟩

example : (argCartesian0 {} none [] argArrays >>= toList) = ok [
    .tuple [.atom (.int 0), .atom (.int 0)], .tuple [.atom (.int 0), .atom (.int 1)],
    .tuple [.atom (.int 0), .atom (.int 2)], .tuple [.atom (.int 1), .atom (.int 0)],
    .tuple [.atom (.int 1), .atom (.int 1)], .tuple [.atom (.int 1), .atom (.int 2)]] :=
  R.lists (by decide +kernel)

example : (argCartesian0 {} none (nestedTrue false 2) argArrays >>= toList) = ok [
    .list [.tuple [.atom (.int 0), .atom (.int 0)], .tuple [.atom (.int 0), .atom (.int 1)],
      .tuple [.atom (.int 0), .atom (.int 2)]],
    .list [.tuple [.atom (.int 1), .atom (.int 0)], .tuple [.atom (.int 1), .atom (.int 1)],
      .tuple [.atom (.int 1), .atom (.int 2)]]] :=
  R.lists (by decide +kernel)

/-- **C88 is violated:** with `nested=True` and an empty second array the result is empty, although the first array has
positions, each of which should have an empty list. -/
theorem C88_nested_empty_violated :
    (argCartesian0 {} none (nestedTrue false 2) [intArray [1, 2], intArray []] >>= toList) = ok [] :=
  R.lists (by decide +kernel)

/-- **C88 is violated:** `nested=True` of a dict of arrays, however many and whatever they are, raises an error. -/
theorem C88_nested_dict_violated (p : Params) (keys : List String) (cs : List Content) (hne : cs ≠ []) :
    argCartesian0 p (some keys) (nestedTrue true cs.length) cs = err "IndexError" := by
  unfold argCartesian0
  rw [mapR_localIndex, bind_ok]
  have := C71_nested_dict_violated p keys
    (cs.map (fun c => intArray ((List.range c.len).map (fun (i : Nat) => (i : Int))))) (by simpa using hne)
  rwa [List.length_map] at this

end Awk.Props
