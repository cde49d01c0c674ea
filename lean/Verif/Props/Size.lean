import Verif.Lemmas.Size
import Verif.Lemmas.ValEq
import Verif.Props.List
/-
C84: `ak.size`.
-/

namespace Awk.Props
open R Content

/-- **C84.** `size(array)` only gives a number for a rectilinear array: every item has the same dimensions, and the
number is their product with the length of the array. -/
theorem C84_size (c : Content) (h : c.validity = ok ()) (n : Nat) (hs : c.akSize none = ok n)
    (vs : List Val) (hv : c.toList = ok vs) :
    ∃ dims : List Nat, n = vs.length * dims.prod ∧ ∀ v ∈ vs, Val.Rectilinear dims v := by
  have hg := good_of_validity h
  rw [hg.toList, ok.injEq] at hv
  subst hv
  simp only [akSize, sizes] at hs
  obtain ⟨ss, h1, h2⟩ := bind_eq_ok.mp hs
  obtain ⟨s, h3, h4⟩ := bind_eq_ok.mp h1
  cases h4
  simp only [sizesProduct] at h2
  obtain ⟨m, h5, h6⟩ := bind_eq_ok.mp h2
  cases h6
  obtain ⟨ds, rfl, rfl⟩ := sizesProduct_ok h5
  refine ⟨ds, by simp, fun v hm => ?_⟩
  obtain ⟨i, hi, rfl⟩ := List.mem_map.mp hm
  exact sizes_rect c hg ds h3 i (by simpa using hi)

/-- **C84.** In an array of nothing but lists and numbers, `size(array)` is the number of numbers. -/
theorem C84_counts (c : Content) (h : c.validity = ok ()) (n : Nat) (hs : c.akSize none = ok n)
    (vs : List Val) (hv : c.toList = ok vs) (k : Nat) (hk : Val.Counted k (.list vs)) : n = k := by
  obtain ⟨ds, rfl, hr⟩ := C84_size c h n hs vs hv
  rw [hk.rect (vs.length :: ds) (.list hr)]
  simp

/-- **C84 (partial).** If `size(array, axis)` gives a number, then every list at that axis has that length. Missing:
that the array has such an axis (`C84_deep_violated`). -/
theorem C84_axis_partial (c : Content) (h : c.validity = ok ()) (a n : Nat) (hs : c.akSize (some (a + 1)) = ok n)
    (vs : List Val) (hv : c.toList = ok vs) (v : Val) (hm : v ∈ vs) (l : List Val) (hl : Val.ListAt l a v) :
    l.length = n := by
  have hg := good_of_validity h
  rw [hg.toList, ok.injEq] at hv
  subst hv
  obtain ⟨i, hi, rfl⟩ := List.mem_map.mp hm
  simp only [akSize, sizes] at hs
  obtain ⟨ss, h1, h2⟩ := bind_eq_ok.mp hs
  obtain ⟨s, h3, h4⟩ := bind_eq_ok.mp h1
  cases h4
  obtain ⟨o, ho, hn⟩ := sizes_listAt c hg a s h3 i (by simpa using hi) l hl
  have hlen := sizes_length c a s h3
  obtain ⟨ha, rfl⟩ := List.getElem?_eq_some_iff.mp ho
  refine hn n ?_
  have hlast : (some c.len :: s).getLast? = some s[a] := by
    rw [List.getLast?_eq_getElem?]
    simp only [List.length_cons, Nat.add_sub_cancel]
    have : s.length = a + 1 := by omega
    rw [this]
    simp
  simp only [sizesLast, hlast] at h2
  split at h2
  · rename_i m hmm
    cases h2
    simpa using hmm
  · cases h2
  · cases h2

/-- **C84.** `size(array, axis=0)` is the length of the array. -/
theorem C84_outer (c : Content) (h : c.validity = ok ()) (vs : List Val) (hv : c.toList = ok vs) :
    c.akSize (some 0) = ok vs.length := by
  have hg := good_of_validity h
  rw [hg.toList, ok.injEq] at hv
  subst hv
  simp [akSize, sizes, sizesLast]

/-- **C84.** Lists of fixed size, of any depth, have a size. -/
theorem C84_accepts (c : Content) (h : Boxlike c) : ∃ n, c.akSize none = ok n := by
  obtain ⟨ds, hd⟩ := h.sizes
  exact ⟨c.len * ds.prod, by simp [akSize, Content.sizes, hd, sizesProduct, sizesProduct_map]⟩

/-- `[[[0, 1, 2], [3, 4, 5]], None, [[6, 7, 8], [9, 10, 11]]]`, with lists of fixed size. -/
def boxes : Content :=
  indexedOption {} [0, -1, 1] (regular {} (regular {} (numpy {} .int64
    ((List.range 12).map (fun k => Atom.int k))) 3 0) 2 0)

example : boxes.validity = ok () ∧ boxes.akSize none = ok 18 ∧ boxes.akSize (some 0) = ok 3
    ∧ boxes.akSize (some 1) = ok 2 ∧ boxes.akSize (some 2) = ok 3 := by
  refine ⟨rfl, rfl, rfl, rfl, rfl⟩

example : Boxlike boxes := .indexedOption (.regular (.regular .numpy))

example : ∃ v vs, boxes.toList = ok (v :: vs) ∧ ∃ l, Val.ListAt l 1 v ∧ l.length = 3 :=
  ⟨_, _, rfl, _, .deeper (List.mem_cons_self) .list, rfl⟩

/-- `[[1, 2], [3, 4]]` has four numbers. -/
example : Val.Counted 4 (.list [.list [.atom (.int 1), .atom (.int 2)], .list [.atom (.int 3), .atom (.int 4)]]) :=
  .cons (n := 2) (m := 2) (.cons (n := 1) (m := 1) .atom (.cons (n := 1) (m := 0) .atom .nil))
    (.cons (n := 2) (m := 0) (.cons (n := 1) (m := 1) .atom (.cons (n := 1) (m := 0) .atom .nil)) .nil)

example : (regular {} (numpy {} .int64 [.int 1, .int 2, .int 3, .int 4]) 2 0).akSize none = ok 4 := rfl

/-- Lists of different lengths do not have a size. -/
example : ∃ e, (listOffset {} [0, 2, 3] (numpy {} .int64 [.int 1, .int 2, .int 3])).akSize none = err e :=
  ⟨_, rfl⟩

/-- `[1, 2, 3]` -/
def oneAxis : Content := numpy {} .int64 [.int 1, .int 2, .int 3]

/-- **C84.** An axis that the array does not have should be an error, but the size of the last axis is given:
`size([1, 2, 3], axis=5)` is 3. -/
theorem C84_deep_violated : oneAxis.validity = ok () ∧ oneAxis.akSize (some 5) = ok 3 := ⟨rfl, rfl⟩

/-- `[{}, {}]` -/
def noFields : Content := record {} (some []) [] 2

/-- **C84.** Records without fields make `size` raise an unrelated error. -/
theorem C84_fields_violated : noFields.validity = ok () ∧ noFields.akSize none
    = err "'NoneType' object is not iterable" := ⟨rfl, rfl⟩

/-- `[[1, 2], [3, 4]]` as lists that could be of any length. -/
def evenLists : Content := listOffset {} [0, 2, 4] (numpy {} .int64 [.int 1, .int 2, .int 3, .int 4])

/-- **C84.** `size` should only raise if `to_numpy` would. It raises for any lists of variable length, also if they
all have the same length: the result depends on how the array was made. -/
theorem C84_even_violated : evenLists.validity = ok () ∧ (evenLists.akSize none).IsErr
    ∧ evenLists.toList = (regular {} (numpy {} .int64 [.int 1, .int 2, .int 3, .int 4]) 2 0).toList := by
  refine ⟨rfl, ⟨_, rfl⟩, rfl⟩

end Awk.Props
