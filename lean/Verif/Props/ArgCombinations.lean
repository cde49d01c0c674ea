import Verif.Lemmas.ArgCombinations
import Verif.Lemmas.ValEq
import Verif.Props.Combinations
import Verif.Props.List
/-
C85: `ak.argcombinations`.
-/

namespace Awk.Props
open R Spec Content

/-- **C85 (partial).** `argcombinations(array, n, axis)` at any positive axis replaces every list at that depth by the
picks of `n` of its positions, as tuples or records of integers, under records, unions, options and indexes. The
lists can also be strings. Missing: regular lists shorter than `n` (`C85_regular_violated`) and arrays of unknown type
(`C85_unknown_violated`). -/
theorem C85_argcombinations_partial (c : Content) (h : c.validity = ok ()) (n : Nat) (hn : 1 ≤ n)
    (repl : Bool) (keys : Option (List String)) (hk : ∀ ks, keys = some ks → ks.length = n)
    (p : Params) (a : Nat) (ha : 1 ≤ a) (hx : HasAxis true false a c)
    (hw : ListsAt (Wide repl n) a c) (vs : List Val) (hv : c.toList = ok vs) :
    ∃ d, c.argCombinations n repl keys p a = ok d ∧
      d.toList = ok (vs.map (Val.mapAxis false (argCombine repl n keys) a)) := by
  have hg := good_of_validity h
  obtain ⟨hs, ht⟩ := localindexF_ok hg (Nat.le_refl _) ha
  obtain ⟨e, he⟩ := ht (hasAxis_weaken hx)
  rw [he, sat_ok] at hs
  obtain ⟨g1, g2, g3⟩ := localindexF_canPick (repl := repl) (n := n) hg (Nat.le_refl _) ha hx hw he
  have hge := hs.toMaps.1
  have hve := toList_maps hg hs hv
  obtain ⟨hsat, ht⟩ := combinationsF_ok (repl := repl) keys p hn hge (Nat.le_refl _) ha g3
  obtain ⟨d, hd⟩ := ht ⟨g1, g2⟩
  rw [hd, sat_ok] at hsat
  refine ⟨d, ?_, ?_⟩
  · unfold argCombinations localIndex
    rw [if_neg (by omega), he, bind_ok]
    unfold Content.combinations
    rw [if_neg (by cases keys <;> simp; exact (hk _ rfl).symm), if_neg (by omega), if_neg (by omega), hd]
  · rw [toList_maps hge hsat hve, List.map_map]
    congr 1
    apply List.map_congr_left
    intro v _
    simp only [Function.comp]
    rw [Val.mapAxis_twice (g := Val.positions) (fun v => ⟨_, rfl⟩)]
    simp only [combine_positions]

/-- **C85.** At axis 0 the picks are those of the positions in the array itself, for every valid array. -/
theorem C85_axis0 (c : Content) (n : Nat) (hn : 1 ≤ n) (repl : Bool) (keys : Option (List String))
    (hk : ∀ ks, keys = some ks → ks.length = n) (p : Params) (vs : List Val) (hv : c.toList = ok vs) :
    ∃ d, c.argCombinations n repl keys p 0 = ok d ∧
      d.toList = ok ((choose repl n (List.range vs.length)).map (pickOf keys)) := by
  have hl : vs.length = c.len := mapN_length hv
  have he : c.localIndex 0 = ok (intArray ((List.range c.len).map (fun (i : Nat) => (i : Int)))) := by
    unfold Content.localIndex localindexAxis0 localindex_kernel
    rw [if_pos rfl, forN_fill_eq (fun (i : Nat) => (i : Int)) (alloc_length _) (fun i hi => rfl), bind_ok]
  obtain ⟨e, h1, h2⟩ := C21_local_index_axis0 c vs hv
  rw [he, ok.injEq] at h1
  subst h1
  obtain ⟨d, h3, h4⟩ := C24_combinations_axis0 _ rfl n hn repl keys hk p _ h2
  refine ⟨d, by unfold argCombinations; rw [he, bind_ok]; exact h3, ?_⟩
  rw [h4, choose_map, List.map_map]
  rfl

/-- **C85.** The positions are those of the combinations: taking the items of a list at the positions of the picks
gives what `combinations` puts in its place, in the same order. -/
theorem C85_items (repl : Bool) (n : Nat) (keys : Option (List String)) (v : Val) :
    ∃ picks : List (List Nat),
      (∀ t ∈ picks, ∀ i ∈ t, i < v.items.length) ∧
      argCombine repl n keys v = .list (picks.map (pickOf keys)) ∧
      combine repl n keys v = .list (picks.map (fun t => mkRecord keys (t.map (fun i => v.items[i]?.getD .null)))) := by
  refine ⟨choose repl n (List.range v.items.length), ?_, rfl, ?_⟩
  · intro t ht i hi
    exact (((C24_choose_spec repl n v.items.length).2.2 t).mp ht).2.1 i hi
  · unfold combine
    rw [C24_choose_items repl n v.items .null, List.map_map]
    rfl

/-- **C85.** `n` below 1 and a wrong number of names are never accepted. -/
theorem C85_refused (c : Content) (n : Nat) (repl : Bool) (keys : Option (List String)) (p : Params)
    (a : Nat) (h : n = 0 ∨ ∃ ks, keys = some ks ∧ ks.length ≠ n) (d : Content) :
    c.argCombinations n repl keys p a ≠ ok d := by
  intro hd
  obtain ⟨e, _, h2⟩ := bind_eq_ok.mp hd
  obtain ⟨m, hm⟩ := C24_refused e n repl keys p a h
  rw [hm] at h2
  cases h2

/-- `[None, ["ab", "c"], ["def"]]`, lists of strings of which the first is missing. -/
def wordLists : Content :=
  indexedOption {} [-1, 0, 1] (listOffset {} [0, 2, 3] (listOffset { arr := .string } [0, 2, 3, 6]
    (numpy { arr := .char } .uint8 [.int 97, .int 98, .int 99, .int 100, .int 101, .int 102])))

example : wordLists.validity = ok () ∧ (wordLists.argCombinations 2 false none {} 1 >>= toList)
    = ok [.null, .list [.tuple [.atom (.int 0), .atom (.int 1)]], .list []] := ⟨rfl, rfl⟩

/-- The strings, too, can be seen as lists. -/
example : (wordLists.argCombinations 2 false none {} 2 >>= toList)
    = ok [.null, .list [.list [.tuple [.atom (.int 0), .atom (.int 1)]], .list []],
      .list [.list [.tuple [.atom (.int 0), .atom (.int 1)], .tuple [.atom (.int 0), .atom (.int 2)],
        .tuple [.atom (.int 1), .atom (.int 2)]]]] := rfl

example : HasAxis true false 2 wordLists ∧ ListsAt (Wide false 2) 2 wordLists := by
  have hc : HasAxis true false 2 wordLists := .thru rfl (fun d hd => by
    simp only [wordLists, children, List.mem_singleton] at hd
    subst hd
    refine .inside rfl (Nat.le_refl _) (fun d hd => ?_)
    simp only [children, List.mem_singleton] at hd
    subst hd
    exact .here rfl)
  refine ⟨hc, .thru rfl (fun d hd => ?_)⟩
  simp only [wordLists, children, List.mem_singleton] at hd
  subst hd
  refine .inside rfl (Nat.le_refl _) (fun d hd => ?_)
  simp only [children, List.mem_singleton] at hd
  subst hd
  exact .here rfl (by intro _ _ _ _ he; cases he)

/-- **C85 fails** for arrays of unknown type: `argcombinations([], 2)` raises, because `local_index` turns them into
arrays of integers, while `combinations([], 2)` gives an empty array. The same happens to `[[], []]` at axis 2. -/
theorem C85_unknown_violated :
    (Content.empty {}).validity = ok () ∧ ((Content.empty {}).argCombinations 2 false none {} 1).IsErr ∧
    ((Content.empty {}).combinations 2 false none {} 1 >>= toList) = ok [] ∧
    ((listOffset {} [0, 0, 0] (Content.empty {})).argCombinations 2 false none {} 2).IsErr :=
  ⟨rfl, ⟨_, rfl⟩, rfl, ⟨_, rfl⟩⟩

/-- **C85 fails** for lists of a fixed size below `n`, like `combinations` (`C24_regular_violated`): the code writes
outside its buffers. -/
theorem C85_regular_violated :
    (regular {} (numpy {} .int64 [.int 1, .int 2]) 2 1).validity = ok () ∧
    (regular {} (numpy {} .int64 [.int 1, .int 2]) 2 1).argCombinations 3 false none {} 1 = ub := ⟨rfl, rfl⟩

end Awk.Props
