import Verif.Lemmas.BroadcastComplete
/-
Property theorems C43: broadcasting.
-/

namespace Awk.Props
open R Content

/-- **C43.** `broadcast_arrays`. Whatever it returns has one output for each input; every output has
the length of the longest input, and all inputs have this length, except that the only element of an
input of length 1 is repeated. In every row the outputs are the broadcast inputs: a value that is
not a list is repeated for every item of the lists of the other inputs, lists of all inputs have the
same length and their items stay in place, and a missing value makes the outputs missing.

Partial: inputs with fixed-size lists, strings or unions are not covered. -/
theorem C43_broadcast_partial (fuel : Nat) (cs outs : List Content) (vss : List (List Val))
    (hne : cs ≠ []) (hv : ∀ c ∈ cs, c.validity = ok () ∧ AllNodes BcastNode c)
    (hin : mapR toList cs = ok vss) (h : broadcastArrays fuel cs = ok outs) :
    ∃ n oss, mapR toList outs = ok oss ∧ oss.length = vss.length ∧
      (∃ vs ∈ vss, vs.length = n) ∧ (∀ vs ∈ vss, vs.length = n ∨ (vs.length = 1 ∧ 1 < n)) ∧
      (∀ os ∈ oss, os.length = n) ∧
      ∀ i, i < n → Bcast
        (vss.map (fun vs => vs[if vs.length = 1 then 0 else i]?.getD .null))
        (oss.map (fun os => os[i]?.getD .null)) := by
  have hb : ∀ c ∈ cs, Bin c := fun c hc => ⟨good_of_validity (hv c hc).1, (hv c hc).2⟩
  obtain ⟨n, hn, h1, h2, h3, h4⟩ := broadcastArrays_sound hne hb h
  have hlist : ∀ {l : List Content}, (∀ c ∈ l, c.Good) →
      mapR toList l = ok (l.map (fun c => (List.range c.len).map c.valD)) := by
    intro l hl
    rw [mapR_forall₂, List.forall₂_map_right_iff]
    exact List.forall₂_same.mpr (fun c hc => (hl c hc).toList)
  rw [hlist (fun c hc => (hb c hc).good)] at hin
  simp only [ok.injEq] at hin; subst hin
  refine ⟨n, _, hlist (fun o ho => (h3 o ho).1), by simp [h2], ?_, ?_, ?_, ?_⟩
  · obtain ⟨c, hc, hcn⟩ : ∃ c ∈ cs, c.len = n := by
      apply Classical.byContradiction
      intro hno
      simp only [not_exists, not_and] at hno
      have hall : ∀ x ∈ cs.map len, x = 1 := by
        intro x hx
        obtain ⟨c, hc, rfl⟩ := List.mem_map.mp hx
        rcases h1 c hc with h | h
        · exact absurd h (hno c hc)
        · exact h.1
      have := foldl_max_const hall (by simpa using hne)
      obtain ⟨c, hc⟩ := List.exists_mem_of_ne_nil cs hne
      rcases h1 c hc with h | h
      · exact hno c hc h
      · omega
    exact ⟨_, List.mem_map.mpr ⟨c, hc, rfl⟩, by simpa using hcn⟩
  · intro vs hvs
    obtain ⟨c, hc, rfl⟩ := List.mem_map.mp hvs
    simpa using h1 c hc
  · intro os hos
    obtain ⟨o, ho, rfl⟩ := List.mem_map.mp hos
    simpa using (h3 o ho).2
  · intro i hi
    have e1 : (cs.map (fun c => (List.range c.len).map c.valD)).map
        (fun vs => vs[if vs.length = 1 then 0 else i]?.getD .null)
        = cs.map (fun c => c.valD (if c.len = 1 then 0 else i)) := by
      rw [List.map_map]
      refine List.map_congr_left (fun c hc => ?_)
      have hlt : (if c.len = 1 then 0 else i) < c.len := by
        rcases h1 c hc with h | h <;> split <;> omega
      simp only [Function.comp_apply, List.length_map, List.length_range]
      rw [List.getElem?_eq_getElem (by simpa using hlt)]
      simp
    have e2 : (outs.map (fun c => (List.range c.len).map c.valD)).map
        (fun os => os[i]?.getD .null) = outs.map (fun o => o.valD i) := by
      rw [List.map_map]
      refine List.map_congr_left (fun o ho => ?_)
      have := (h3 o ho).2
      simp only [Function.comp_apply]
      rw [List.getElem?_eq_getElem (by simpa [this] using hi)]
      simp
    rw [e1, e2]
    exact h4 i hi

/-- A flat array, and lists with a missing one. -/
def bcastFlat : Content := numpy {} .int64 [.int 1, .int 2, .int 3]
def bcastLists : Content :=
  indexedOption {} [0, -1, 1] (listOffset {} [0, 2, 3] (numpy {} .int64 [.int 10, .int 20, .int 30]))

example : (∀ c ∈ [bcastFlat, bcastLists], c.validity = ok ()) ∧
    (broadcastArrays 4 [bcastFlat, bcastLists] >>= mapR toList)
      = ok [[.list [.atom (.int 1), .atom (.int 1)], .null, .list [.atom (.int 3)]],
          [.list [.atom (.int 10), .atom (.int 20)], .null, .list [.atom (.int 30)]]] := by
  refine ⟨?_, by rfl⟩
  intro c hc
  simp only [List.mem_cons, List.not_mem_nil, or_false] at hc
  rcases hc with rfl | rfl <;> rfl

example : ∀ c ∈ [bcastFlat, bcastLists], AllNodes BcastNode c := by
  intro c hc
  simp only [List.mem_cons, List.not_mem_nil, or_false] at hc
  rcases hc with rfl | rfl <;> simp [bcastFlat, bcastLists, all_numpy, all_listOffset, all_listArray, all_indexedOption, all_record, BcastNode]

/-- Records with the same names in another order, and with numbers. -/
example : (broadcastArrays 6 [record {} (some ["x", "y"]) [bcastFlat, bcastLists] 3,
      record {} (some ["y", "x"]) [bcastFlat, bcastFlat] 3, numpy {} .int64 [.int 7]]).IsOk := by
  exact ⟨_, rfl⟩

/-- **C43.** Flat arrays of numbers and arrays of lists of numbers of the same nonzero length are
broadcast whenever the lists in every row have the same length. (By the theorem above the result is
then the broadcast inputs.)

Partial: only these layouts; the theorems below show that more deeply nested lists can be
refused. -/
theorem C43_accepted_partial (fuel n : Nat) (hf : 3 ≤ fuel) (hn : 0 < n) (cs : List Content)
    (vss : List (List Val)) (hv : ∀ c ∈ cs, c.validity = ok () ∧ FlatOrLists c)
    (hin : mapR toList cs = ok vss) (hl : ∀ vs ∈ vss, vs.length = n)
    (ha : ∀ i, i < n → ∃ k, ∀ vs ∈ vss, ∀ xs, vs[i]? = some (.list xs) → xs.length = k) :
    (broadcastArrays fuel cs).IsOk := by
  obtain ⟨f, rfl⟩ : ∃ f, fuel = f + 3 := ⟨fuel - 3, by omega⟩
  have hb : ∀ c ∈ cs, Bin c := fun c hc =>
    ⟨good_of_validity (hv c hc).1, (hv c hc).2.nodes⟩
  rw [mapR_forall₂] at hin
  have hval : ∀ c ∈ cs, ∃ vs ∈ vss, vs = (List.range c.len).map c.valD := by
    intro c hc
    obtain ⟨vs, hvs, h⟩ := fa2_left hin hc
    rw [(hb c hc).good.toList] at h
    simp only [ok.injEq] at h
    exact ⟨vs, hvs, h.symm⟩
  have hlen : ∀ c ∈ cs, c.len = n := by
    intro c hc
    obtain ⟨vs, hvs, h⟩ := hval c hc
    have := hl vs hvs
    rw [h] at this
    simpa using this
  exact broadcastArrays_complete hn hb (fun c hc => (hv c hc).2) hlen (fun i hi => by
    obtain ⟨k, hk⟩ := ha i hi
    refine ⟨k, fun c hc xs hx => ?_⟩
    obtain ⟨vs, hvs, h⟩ := hval c hc
    refine hk vs hvs xs ?_
    rw [h, List.getElem?_eq_getElem (by simpa [hlen c hc] using hi)]
    simpa using hx)

example : FlatOrLists bcastFlat ∧
    FlatOrLists (listOffset {} [0, 2, 2, 3] (numpy {} .int64 [.int 10, .int 20, .int 30])) ∧
    FlatOrLists (listArray {} [1, 0, 2] [3, 0, 3] (numpy {} .int64 [.int 10, .int 20, .int 30])) := by
  simp [FlatOrLists, bcastFlat]

/-- Lists of lists: offset 1 leaves the first inner list out, and it has different lengths. -/
def bcastHidden (k : Int) : Content :=
  listOffset {} [1, 2] (listOffset {} [0, k, k + 1] (numpy {} .int64 [.int 1, .int 2, .int 3]))

/-- **C43, violated.** Lists whose visible lengths agree are refused because of an inner list that
is not part of the array. -/
theorem C43_hidden_violated : ∃ cs : List Content,
    (∀ c ∈ cs, c.validity = ok () ∧ AllNodes BcastNode c) ∧
    mapR toList cs = ok [[.list [.list [.atom (.int 3)]]], [.list [.list [.atom (.int 2)]]]] ∧
    ∀ fuel, ¬ (broadcastArrays (fuel + 4) cs).IsOk := by
  refine ⟨[bcastHidden 2, bcastHidden 1], ?_, by rfl, ?_⟩
  · intro c hc
    simp only [List.mem_cons, List.not_mem_nil, or_false] at hc
    rcases hc with rfl | rfl <;>
      exact ⟨by rfl, by simp [bcastHidden, all_numpy, all_listOffset, all_listArray, all_indexedOption, all_record, BcastNode]⟩
  · rintro fuel ⟨outs, h⟩
    cases h

/-- **C43, violated.** Two arrays without any lists are refused, when the offsets of one of them do
not start at 0. -/
theorem C43_empty_violated : ∃ cs : List Content,
    (∀ c ∈ cs, c.validity = ok () ∧ AllNodes BcastNode c) ∧ mapR toList cs = ok [[], []] ∧
    ∀ fuel, ¬ (broadcastArrays (fuel + 4) cs).IsOk := by
  refine ⟨[listOffset {} [1] (numpy {} .int64 [.int 1]),
    listArray {} [] [] (numpy {} .int64 [.int 1])], ?_, by rfl, ?_⟩
  · intro c hc
    simp only [List.mem_cons, List.not_mem_nil, or_false] at hc
    rcases hc with rfl | rfl <;>
      exact ⟨by rfl, by simp [all_numpy, all_listOffset, all_listArray, all_indexedOption, all_record, BcastNode]⟩
  · rintro fuel ⟨outs, h⟩
    cases h

/-- **C43, violated.** An array of three empty fixed-size lists, broadcast with itself, loses its
length. -/
theorem C43_size0_violated : ∃ c : Content, c.validity = ok () ∧
    c.toList = ok [.list [], .list [], .list []] ∧
    ∀ fuel, (broadcastArrays (fuel + 4) [c, c] >>= mapR toList) = ok [[], []] := by
  refine ⟨regular {} (numpy {} .int64 []) 0 3, by rfl, by rfl, fun fuel => by rfl⟩

/-- **C43, violated.** Records without fields are refused. -/
theorem C43_nofields_violated : ∃ c : Content, c.validity = ok () ∧ AllNodes BcastNode c ∧
    c.toList = ok [.record [], .record []] ∧
    ∀ fuel, ¬ (broadcastArrays (fuel + 4) [c]).IsOk := by
  refine ⟨record {} (some []) [] 2, by rfl, by simp [all_numpy, all_listOffset, all_listArray, all_indexedOption, all_record, BcastNode], by rfl, ?_⟩
  rintro fuel ⟨outs, h⟩
  cases h

/-- **C43, violated.** Broadcasting two arrays with missing values changes the mask of the first
one in place, when it is a ByteMaskedArray with `valid_when=False`: values of the input become
missing. -/
theorem C43_inputs_violated : ∃ c d c' : Content, c.validity = ok () ∧ d.validity = ok () ∧
    optionInputsAfter [c, d] = ok [c', d] ∧
    c.toList = ok [.atom (.int 1), .atom (.int 2)] ∧ c'.toList = ok [.atom (.int 1), .null] :=
  ⟨byteMasked {} [0, 0] false (numpy {} .int64 [.int 1, .int 2]),
    indexedOption {} [0, -1] (numpy {} .int64 [.int 1, .int 2]), _, rfl, rfl, rfl, rfl, rfl⟩

end Awk.Props
