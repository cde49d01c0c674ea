import Verif.Lemmas.WithNameUnion
import Verif.Props.WithName
import Verif.Props.Merge
/-
C86: `ak.with_name` of unions.
-/

namespace Awk.Props
open R Content

/-- **C86, unions (partial).** `with_name(array, name)` of a union does not raise and shows the same elements (as values:
numbers compare as numbers, records as sets of fields). Missing: unions inside of other arrays, more than 127
alternatives, alternatives that cannot be merged (see C17), and the type, which changes (`C86_union_violated`). -/
theorem C86_union_partial (same : Content → Content → Bool) (hsame : ∀ a b, same a b = true → a = b)
    (no : Without) (hu : no.union) (hno : no.indexed ∨ no.option) (name : String) (p : Params) (tags index : List Int)
    (cs : List Content) (h : (union p tags index cs).validity = ok ()) (vs : List Val)
    (hv : (union p tags index cs).toList = ok vs) (hl : cs.length ≤ 127)
    (hn : ∀ c ∈ cs, AllNodes (MergeNode no) c) :
    ∃ d ws, (union p tags index cs).withName same name = ok d ∧ d.toList = ok ws ∧
      ws.map Val.canon = vs.map Val.canon := by
  have hg := good_of_validity h
  obtain ⟨e, h1, h2⟩ := apply_maps (withNameGet_applies (name := name) hg 1) hg
  have h1' := h1
  simp only [apply, withNameGet, bind_ok, custom, bind_eq_ok, ok.injEq] at h1'
  obtain ⟨es, h3, rfl⟩ := h1'
  obtain ⟨g1, g2⟩ := withNameGet_mergeAll hu hn h3
  have hge := h2.toMaps.1
  have hc := (good_union.mp hge).2.1
  have hs : ∀ c ∈ es, c.alts = [c] := fun c hm => alts_single hu (g2 c hm)
  have key := simplifyUnion_ok (mb := false) (domerge := true) hsame (fun _ => hno) hge (no := no) (by
    intro c hm d hd
    rw [hs c hm, List.mem_singleton] at hd
    subst hd
    exact ⟨hc _ hm, g2 _ hm⟩)
  obtain ⟨d, hd⟩ := key.2 ⟨hu, by rw [alts_length hs, g1]; exact hl⟩
  have hsat := key.1
  rw [hd, sat_ok] at hsat
  obtain ⟨k1, k2⟩ := hsat
  rw [cv_toList hge (toList_maps hg h2 hv)] at k2
  obtain ⟨ws, w1, w2⟩ := toList_cv k1 k2
  refine ⟨d, ws, ?_, w1, by rw [w2]; simp⟩
  unfold withName
  rw [h1, bind_ok]
  simp only [apply, withNameSimplify, hd, bind_ok, custom]

/-- `[{x: 1}, {y: 2.5}]`. -/
def namedKinds : Content :=
  union {} [0, 1] [0, 0]
    [record { recName := some "a" } (some ["x"]) [intArray [1]] 1, record {} (some ["y"]) [numpy {} .float64 [.real 2]] 1]

example : namedKinds.validity = ok () ∧ (namedKinds.withName (fun _ _ => false) "b" >>= Content.toList) =
    ok [.record [("x", .atom (.int 1))], .record [("y", .atom (.real 2))]] :=
  ⟨rfl, R.lists (by decide +kernel)⟩

example (c : Content) (hc : c ∈ namedKinds.children) : AllNodes (MergeNode ⟨True, True, True, False⟩) c := by
  have hx : ∀ d data, d = .int64 ∨ d = .float64 → AllNodes (MergeNode ⟨True, True, True, False⟩) (numpy {} d data) := by
    intro d data hd
    refine .mk ⟨by simp, fun _ _ => ?_⟩ (by simp [children])
    rcases hd with rfl | rfl <;> simp
  simp only [namedKinds, children, List.mem_cons, List.not_mem_nil, or_false] at hc
  rcases hc with rfl | rfl
  · refine .mk ⟨by simp, by simp [intArray, len], by simp⟩ (fun d hd => ?_)
    simp only [children, List.mem_singleton] at hd
    subst hd
    exact hx _ _ (Or.inl rfl)
  · refine .mk ⟨by simp, by simp [len], by simp⟩ (fun d hd => ?_)
    simp only [children, List.mem_singleton] at hd
    subst hd
    exact hx _ _ (Or.inr rfl)

end Awk.Props
