import Verif.Lemmas.SortStringsTop
import Verif.Props.Sort
/-
Property theorems C29: sort and argsort of strings.
-/

namespace Awk.Props
open Awk R Spec Content

/-- **C29**, sort. Sorting strings in ascending order gives in each innermost list of strings the same
strings, reordered; if none of them has zero bytes, in alphabetical order. The strings may be in lists
of all kinds and depths. `std::sort` is only assumed to do what the C++ standard says. It is false for
descending order (`C29_descending_violated`), and the order is wrong with zero bytes
(`C29_zero_bytes_violated`). Missing for the full property: missing strings, records and unions. -/
theorem C29_sort_partial (std : StdSort) (stable : Bool) (hstd : stable = true ∨ Lawful std) (c : Content)
    (h : c.validity = ok ()) (vs : List Val) (hv : c.toList = ok vs) (n : Nat) (hn : Strings n c)
    (axis : Int) (ha : axis = -1 ∨ axis = (n : Int) - 1) :
    ∃ x ys, c.sort std axis true stable = ok (.array x) ∧ x.toList = ok ys ∧
      AtDepth StringsSorted (n - 1) vs ys := by
  obtain ⟨hg, rfl⟩ := sort_values h hv
  obtain ⟨x, ys, h1, h2, h3⟩ := sortTop_text (a := { arg := false, ascending := true, stable, std }) rfl hstd hg hn ha
  refine ⟨x, ys, h1, h2, ?_⟩
  have : TextRel { arg := false, ascending := true, stable, std } = StringsSorted := by
    funext xs ys; simp [TextRel]
  rw [this] at h3
  exact h3

/-- **C29**, argsort. The positions of the strings in ascending order; with `stable=True` equal strings
keep their order. The conditions are those of `C29_sort_partial`. -/
theorem C29_argsort_partial (std : StdSort) (stable : Bool) (hstd : stable = true ∨ Lawful std) (c : Content)
    (h : c.validity = ok ()) (vs : List Val) (hv : c.toList = ok vs) (n : Nat) (hn : Strings n c)
    (axis : Int) (ha : axis = -1 ∨ axis = (n : Int) - 1) :
    ∃ x is, c.argsort std axis true stable = ok (.array x) ∧ x.toList = ok is ∧
      AtDepth (StringsArgSorted stable) (n - 1) vs is := by
  obtain ⟨hg, rfl⟩ := sort_values h hv
  obtain ⟨x, ys, h1, h2, h3⟩ := sortTop_text (a := { arg := true, ascending := true, stable, std }) rfl hstd hg hn ha
  refine ⟨x, ys, h1, h2, ?_⟩
  have : TextRel { arg := true, ascending := true, stable, std } = StringsArgSorted stable := by
    funext xs ys; simp [TextRel]
  rw [this] at h3
  exact h3

/-- A string with the given bytes. -/
def strOf (bytes : List Int) : Val := .str (bytes.map fun b => .atom (.int b))

/-- `[["two", "a"], [], ["at"]]`. -/
def stringsSample : Content :=
  .listOffset {} [0, 2, 2, 3] (.listArray { arr := .string } [0, 3, 3] [3, 4, 5]
    (.numpy { arr := .char } .uint8 [.int 116, .int 119, .int 111, .int 97, .int 116]))

theorem stringsSample_ok : Strings 2 stringsSample :=
  .listOffset (by simp) rfl (by simp [Content.len]) (.listArrayText ⟨_, _, rfl, .inl ⟨rfl, rfl⟩⟩)

example : stringsSample.validity = ok () ∧ stringsSample.toList = ok
    [.list [strOf [116, 119, 111], strOf [97]], .list [], .list [strOf [97, 116]]] := ⟨rfl, rfl⟩

example : ∃ x y, stringsSample.sort insertionSort (-1) true true = ok (.array x) ∧
    x.toList = ok [.list [strOf [97], strOf [116, 119, 111]], .list [], .list [strOf [97, 116]]] ∧
    stringsSample.argsort insertionSort 1 true true = ok (.array y) ∧
    y.toList = ok [.list [.atom (.int 1), .atom (.int 0)], .list [], .list [.atom (.int 0)]] :=
  ⟨_, _, rfl, rfl, rfl, rfl⟩

theorem insertBy_ordered {lt : Int → Int → Bool} {xs : List Int} (h : strictWeak lt xs = true) {a : Int}
    (ha : a ∈ xs) {l : List Int} (hl : ∀ b ∈ l, b ∈ xs ∧ a ≠ b) (hs : l.Pairwise (fun a b => lt b a = false)) :
    (insertBy lt a l).Pairwise (fun a b => lt b a = false) := by
  induction l with
  | nil => exact List.pairwise_singleton _ _
  | cons b l ih =>
    rw [List.pairwise_cons] at hs
    obtain ⟨hb, hab⟩ := hl b List.mem_cons_self
    have hl' : ∀ c ∈ l, c ∈ xs ∧ a ≠ c := fun c hc => hl c (List.mem_cons_of_mem _ hc)
    unfold insertBy
    cases hba : lt b a with
    | true =>
      rw [if_pos rfl, List.pairwise_cons]
      refine ⟨?_, ih hl' hs.2⟩
      intro c hc
      rcases List.mem_cons.mp ((insertBy_perm lt a l).mem_iff.mp hc) with rfl | hc
      · exact strictWeak_asymm h ha hb hab hba
      · exact hs.1 c hc
    | false =>
      rw [if_neg (by simp), List.pairwise_cons, List.pairwise_cons]
      refine ⟨?_, hs⟩
      intro c hc
      rcases List.mem_cons.mp hc with rfl | hc
      · exact hba
      · obtain ⟨c1, c2⟩ := hl' c hc
        exact strictWeak_neg h c1 hb ha (fun h => c2 h.symm) (hs.1 c hc) hba

/-- An implementation of `std::sort` that keeps its promise. -/
theorem insertionSort_lawful : Lawful insertionSort := by
  intro lt xs hx hw
  refine ⟨foldr_insertBy_perm lt xs, ?_⟩
  have : ∀ l : List Int, (∀ b ∈ l, b ∈ xs) → l.Nodup →
      (l.foldr (insertBy lt) []).Pairwise (fun a b => lt b a = false) := by
    intro l
    induction l with
    | nil => intro _ _; exact List.Pairwise.nil
    | cons a l ih =>
      intro h1 h2
      rw [List.nodup_cons] at h2
      refine insertBy_ordered hw (h1 a List.mem_cons_self) ?_ (ih (fun b hb => h1 b (List.mem_cons_of_mem _ hb)) h2.2)
      intro b hb
      have hb := (foldr_insertBy_perm lt l).mem_iff.mp hb
      exact ⟨h1 b (List.mem_cons_of_mem _ hb), fun h => h2.1 (h ▸ hb)⟩
  exact this xs (fun _ h => h) hx

/-- **C29 fails** in descending order: the comparison is the negation of the ascending one
(awkward_ListOffsetArray_argsort_strings.cpp:21-42), so two equal strings are each before the other.
That is not a strict weak order, and the behaviour of `std::stable_sort` and `std::sort` is undefined. -/
theorem C29_descending_violated :
    let c := Content.listOffset { arr := .string } [0, 1, 2] (.numpy { arr := .char } .uint8 [.int 97, .int 97])
    c.validity = ok () ∧ c.toList = ok [strOf [97], strOf [97]] ∧
    ∀ stable, c.sort insertionSort (-1) false stable = ub ∧ c.argsort insertionSort (-1) false stable = ub := by
  refine ⟨rfl, rfl, fun stable => ?_⟩
  cases stable <;> exact ⟨rfl, rfl⟩

/-- **C29 fails** (the order, not the strings) with zero bytes: `strncmp` stops at a zero byte, so
`"\0b"` and `"\0a"` are equal for it, and stay as they are. -/
theorem C29_zero_bytes_violated :
    let c := Content.listOffset { arr := .string } [0, 2, 4]
      (.numpy { arr := .char } .uint8 [.int 0, .int 98, .int 0, .int 97])
    c.validity = ok () ∧ c.toList = ok [strOf [0, 98], strOf [0, 97]] ∧
    ∃ x, c.sort insertionSort (-1) true true = ok (.array x) ∧ x.toList = ok [strOf [0, 98], strOf [0, 97]] ∧
      before (text (strOf [0, 97])) (text (strOf [0, 98])) = true :=
  ⟨rfl, rfl, _, rfl, rfl, rfl⟩

end Awk.Props
