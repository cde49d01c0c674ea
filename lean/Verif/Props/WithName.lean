import Verif.Lemmas.WithName
import Verif.Lemmas.ValEq
import Verif.Props.List
/-
C86: `ak.with_name`.
-/

namespace Awk.Props
open R Content

/-- **C86 (partial).** `with_name(array, name)` does not raise, gives the outermost records of the type that name,
changes nothing else in the type, and no value. Missing: unions (`C86_union_violated`) and IndexedArrays with
parameters of their own (`C86_indexed_violated`). -/
theorem C86_with_name_partial (same : Content → Content → Bool) (name : String) (c : Content)
    (h : c.validity = ok ()) (hn : AllNodes Nameable c) (vs : List Val) (hv : c.toList = ok vs)
    (typestrs : List (String × String)) :
    ∃ d, c.withName same name = ok d ∧ d.toList = ok vs ∧
      d.type typestrs = (c.type typestrs).named typestrs name := by
  have hg := good_of_validity h
  obtain ⟨e, g1, g2⟩ := apply_maps (withNameGet_applies (name := name) hg 1) hg
  obtain ⟨t1, hn'⟩ := withNameGet_type (ts := typestrs) hn g1
  have hge := g2.toMaps.1
  obtain ⟨d, g3, g4⟩ := apply_maps (withNameSimplify_applies (same := same) hge hn' 1) hge
  refine ⟨d, by unfold withName; rw [g1, bind_ok, g3], ?_, ?_⟩
  · have h1 := toList_maps hg g2 hv
    have h2 := toList_maps hge g4 h1
    simpa using h2
  · unfold Content.type
    rw [withNameSimplify_type hn' g3, t1]

/-- **C86.** The name of the outermost records can be read from the type. -/
theorem C86_named_record (typestrs : List (String × String)) (name : String) (m : TyMeta)
    (keys : Option (List String)) (ts : List AkType) :
    (AkType.named typestrs name (.record m keys ts)).tyMeta.params.recName = some name ∧
    ∀ key value, (key, value) ∈ m.params.other →
      (key, value) ∈ (AkType.named typestrs name (.record m keys ts)).tyMeta.params.other :=
  ⟨by simp [AkType.named, AkType.tyMeta, Params.ty],
   fun _ _ h => by simpa [AkType.named, AkType.tyMeta, Params.ty] using h⟩

/-- `[[{x: 1, y: (10,)}, {x: 2, y: (20,)}], None]`, records `a` with a field of records `b`, in lists that can be
missing. -/
def nestedRecords : Content :=
  indexedOption {} [0, -1] (listOffset {} [0, 2] (indexed {} [1, 0] (record { recName := some "a" } (some ["x", "y"])
    [numpy {} .int64 [.int 2, .int 1],
     record { recName := some "b" } none [numpy {} .int64 [.int 20, .int 10]] 2] 2)))

example : AllNodes Nameable nestedRecords := by
  have leaf : ∀ p dt data, AllNodes Nameable (numpy p dt data) := fun p dt data =>
    .mk ⟨by simp, by simp⟩ (by simp [children])
  unfold nestedRecords
  refine .mk ⟨by simp, by simp⟩ ?_
  simp only [children, List.mem_singleton, forall_eq]
  refine .mk ⟨by simp, by simp⟩ ?_
  simp only [children, List.mem_singleton, forall_eq]
  refine .mk ⟨by simp, ?_⟩ ?_
  · rintro _ _ _ ⟨⟩; rfl
  simp only [children, List.mem_singleton, forall_eq]
  refine .mk ⟨by simp, by simp⟩ ?_
  simp only [children, List.mem_cons, List.not_mem_nil, or_false, forall_eq_or_imp, forall_eq]
  refine ⟨leaf _ _ _, .mk ⟨by simp, by simp⟩ ?_⟩
  simp only [children, List.mem_singleton, forall_eq]
  exact leaf _ _ _

example : nestedRecords.validity = ok () ∧ nestedRecords.withName (fun _ _ => false) "new"
    = ok (indexedOption {} [0, -1] (listOffset {} [0, 2] (indexed {} [1, 0]
      (record { recName := some "new" } (some ["x", "y"])
        [numpy {} .int64 [.int 2, .int 1],
         record { recName := some "b" } none [numpy {} .int64 [.int 20, .int 10]] 2] 2)))) := ⟨rfl, rfl⟩

/-- `[{x: 1}, {x: 2.5}]`, where `x` is an integer or a number with a fraction. -/
def mixedField : Content :=
  record {} (some ["x"]) [union {} [0, 1] [0, 0] [numpy {} .int64 [.int 1], numpy {} .float64 [.real (5/2)]]] 2

/-- **C86 fails** for unions: the second pass simplifies every union, also one in a field that has nothing to do with
the name. The integers of the field `x` become floating point numbers. -/
theorem C86_union_violated :
    mixedField.validity = ok () ∧
    mixedField.toList = ok [.record [("x", .atom (.int 1))], .record [("x", .atom (.real (5/2)))]] ∧
    (mixedField.withName (fun _ _ => false) "new" >>= toList)
      = ok [.record [("x", .atom (.real 1))], .record [("x", .atom (.real (5/2)))]] := by
  refine ⟨rfl, rfl, ?_⟩
  exact R.lists (by decide +kernel)

/-- `[{x: 1}]` as an IndexedArray with a name of its own. -/
def indexedRecord : Content :=
  indexed { recName := some "old" } [0] (record {} (some ["x"]) [numpy {} .int64 [.int 1]] 1)

/-- **C86 fails** for IndexedArrays that have a name of their own: the type still has the old name, because the name
is only set on the records inside. -/
theorem C86_indexed_violated :
    indexedRecord.validity = ok () ∧ ∃ d, indexedRecord.withName (fun _ _ => false) "new" = ok d ∧
      (d.type []).tyMeta.params.recName = some "old" := by
  refine ⟨rfl, _, rfl, rfl⟩

end Awk.Props
