import Verif.Spec.List
/-
Conditions on all nodes of an array.
-/

namespace Awk
namespace Content

theorem allNodes_iff {P : Content → Prop} {c : Content} :
    AllNodes P c ↔ P c ∧ ∀ d ∈ c.children, AllNodes P d := by
  constructor
  · rintro ⟨h, h'⟩; exact ⟨h, h'⟩
  · rintro ⟨h, h'⟩; exact .mk h h'

theorem all_numpy {P : Content → Prop} {p : Params} {d : DType} {data : List Atom} :
    AllNodes P (numpy p d data) ↔ P (numpy p d data) := by rw [allNodes_iff]; simp [children]
theorem all_listOffset {P : Content → Prop} {p : Params} {o : List Int} {c : Content} :
    AllNodes P (listOffset p o c) ↔ P (listOffset p o c) ∧ AllNodes P c := by
  rw [allNodes_iff]; simp [children]
theorem all_regular {P : Content → Prop} {p : Params} {c : Content} {n z : Nat} :
    AllNodes P (regular p c n z) ↔ P (regular p c n z) ∧ AllNodes P c := by
  rw [allNodes_iff]; simp [children]
theorem all_indexedOption {P : Content → Prop} {p : Params} {o : List Int} {c : Content} :
    AllNodes P (indexedOption p o c) ↔ P (indexedOption p o c) ∧ AllNodes P c := by
  rw [allNodes_iff]; simp [children]
theorem all_byteMasked {P : Content → Prop} {p : Params} {o : List Int} {b : Bool} {c : Content} :
    AllNodes P (byteMasked p o b c) ↔ P (byteMasked p o b c) ∧ AllNodes P c := by
  rw [allNodes_iff]; simp [children]
theorem all_record {P : Content → Prop} {p : Params} {ks : Option (List String)}
    {cs : List Content} {n : Nat} :
    AllNodes P (record p ks cs n) ↔ P (record p ks cs n) ∧ ∀ c ∈ cs, AllNodes P c := by
  rw [allNodes_iff]; simp [children]

theorem all_empty {P : Content → Prop} {p : Params} : AllNodes P (empty p) ↔ P (empty p) := by
  rw [allNodes_iff]; simp [children]
theorem all_listArray {P : Content → Prop} {p : Params} {s t : List Int} {c : Content} :
    AllNodes P (listArray p s t c) ↔ P (listArray p s t c) ∧ AllNodes P c := by
  rw [allNodes_iff]; simp [children]
theorem all_indexed {P : Content → Prop} {p : Params} {o : List Int} {c : Content} :
    AllNodes P (indexed p o c) ↔ P (indexed p o c) ∧ AllNodes P c := by
  rw [allNodes_iff]; simp [children]
theorem all_bitMasked {P : Content → Prop} {p : Params} {m : List Nat} {b : Bool} {n : Nat}
    {l : Bool} {c : Content} :
    AllNodes P (bitMasked p m b n l c) ↔ P (bitMasked p m b n l c) ∧ AllNodes P c := by
  rw [allNodes_iff]; simp [children]
theorem all_unmasked {P : Content → Prop} {p : Params} {c : Content} :
    AllNodes P (unmasked p c) ↔ P (unmasked p c) ∧ AllNodes P c := by
  rw [allNodes_iff]; simp [children]
theorem all_union {P : Content → Prop} {p : Params} {t o : List Int} {cs : List Content} :
    AllNodes P (union p t o cs) ↔ P (union p t o cs) ∧ ∀ c ∈ cs, AllNodes P c := by
  rw [allNodes_iff]; simp [children]

end Content
end Awk
