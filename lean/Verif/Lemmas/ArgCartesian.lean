import Verif.Model.ArgCartesian
import Verif.Lemmas.Cartesian
import Verif.Lemmas.Shape
import Verif.Spec.With
import Verif.Spec.ArgCombinations
import Verif.Props.With
/-
Lemmas for `ak.argcartesian`.
-/

namespace Awk
open R Spec

theorem product_map {α β : Type} (f : α → β) : ∀ ls : List (List α),
    product (ls.map (List.map f)) = (product ls).map (List.map f)
  | [] => rfl
  | xs :: ls => by
    simp only [List.map_cons, product, product_map f ls, List.flatMap_map, List.map_flatMap, List.map_map]
    rfl

theorem product_mem {α : Type} {ls : List (List α)} : ∀ {t : List α},
    t ∈ product ls ↔ List.Forall₂ (fun x l => x ∈ l) t ls := by
  induction ls with
  | nil => intro t; simp [product]
  | cons l ls ih =>
    intro t
    simp only [product, List.mem_flatMap, List.mem_map, ih]
    constructor
    · rintro ⟨x, hx, u, hu, rfl⟩
      exact .cons hx hu
    · rintro (_ | ⟨hx, hu⟩)
      exact ⟨_, hx, _, hu, rfl⟩

theorem product_positions {α : Type} (z : α) : ∀ vss : List (List α),
    product vss = (product (vss.map (fun vs => List.range vs.length))).map
      (fun t => List.zipWith (fun vs i => vs[i]?.getD z) vss t)
  | [] => rfl
  | vs :: vss => by
    have h : vs = (List.range vs.length).map (fun i => vs[i]?.getD z) := by
      apply List.ext_getElem (by simp)
      intro i h1 h2
      simp [h1]
    conv => lhs; rw [product, product_positions z vss, h]
    simp only [List.map_cons, product, List.flatMap_map, List.map_flatMap, List.map_map]
    rfl

namespace Content

/-- The positions of an array, as an array. -/
theorem localIndex_zero (c : Content) :
    c.localIndex 0 = ok (intArray ((List.range c.len).map (fun (i : Nat) => (i : Int)))) := by
  unfold Content.localIndex localindexAxis0 localindex_kernel
  rw [if_pos rfl, forN_fill_eq (fun (i : Nat) => (i : Int)) (alloc_length _) (fun i hi => rfl), bind_ok]

theorem positions_toList (n : Nat) : (intArray ((List.range n).map (fun (i : Nat) => (i : Int)))).toList
    = ok ((List.range n).map (fun (i : Nat) => .atom (.int i))) := by
  rw [(good_intArray _).toList]
  congr 1
  apply List.ext_getElem (by simp [intArray, len])
  intro i g1 g2
  have hi : i < n := by simpa using g2
  simp only [List.getElem_map, List.getElem_range]
  unfold intArray
  rw [valD_numpy (by simpa using hi)]
  simp

theorem mapR_localIndex : ∀ cs : List Content, mapR (fun c => c.localIndex 0) cs =
    ok (cs.map (fun c => intArray ((List.range c.len).map (fun (i : Nat) => (i : Int)))))
  | [] => rfl
  | c :: cs => by rw [mapR, mapR_localIndex cs, localIndex_zero]; rfl

theorem mapR_positions {cs : List Content} {vss : List (List Val)} (h : mapR toList cs = ok vss) :
    mapR toList (cs.map (fun c => intArray ((List.range c.len).map (fun (i : Nat) => (i : Int)))))
      = ok (vss.map (fun vs => (List.range vs.length).map (fun (i : Nat) => .atom (.int i)))) := by
  induction cs generalizing vss with
  | nil => simp only [mapR, ok.injEq] at h; subst h; rfl
  | cons c cs ih =>
    simp only [mapR, bind_eq_ok] at h
    obtain ⟨vs, h1, ws, h2, h3⟩ := h
    cases h3
    have hl : vs.length = c.len := mapN_length h1
    simp only [List.map_cons, mapR, positions_toList, ih h2, bind_ok, hl]

/-- The records of `cartesian` with axis 0 are valid for arrays without indexes. -/
theorem cartesian_flat_valid {p : Params} (hp : p.arr = .none) {keys : Option (List String)} {cs : List Content}
    (hne : cs ≠ []) (hg : ∀ c ∈ cs, c.validity = ok ()) (hi : ∀ c ∈ cs, c.isOptionOrIndexed = false) :
    let outs := List.zipWith (fun idx c => indexed {} idx c) (meshIndexes (cs.map len)) cs
    (record p keys outs (minLength outs)).validity = ok () := by
  intro outs
  refine validity_of_layout (cartesian_flat hne (fun c hc => good_of_validity (hg c hc))).1 ?_
  simp only [layout, paramsOk, hp, bind_ok, layoutAll_ok]
  intro d hd
  obtain ⟨j, hj, rfl⟩ := List.mem_iff_getElem.mp hd
  simp only [outs, List.getElem_zipWith, layout, paramsOk, bind_ok, nestedOk]
  have hm : cs[j]'(by simp [outs] at hj; omega) ∈ cs := List.getElem_mem _
  rw [hi _ hm]
  exact layout_of_validity (hg _ hm)

end Content
end Awk
