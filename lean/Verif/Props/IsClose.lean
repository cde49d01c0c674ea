import Verif.Lemmas.IsClose
import Verif.Props.Zip
import Verif.Lemmas.AllNodes
import Mathlib.Tactic.Positivity
import Mathlib.Tactic.NormNum
/-
C96: `ak.isclose`.
-/

namespace Awk.Props
open R Spec Content

/-- **C96 (partial).** What `isclose` returns: an array as long as the longer argument (an argument of length 1 is repeated), in
which two numbers that belong together are replaced by whether they are close to each other. Missing:
arrays with fixed-size lists, strings or unions, which arrays are accepted, rounding, infinities and NaN. -/
theorem C96_isclose_partial (fuel : Nat) (rtol atol : Rat) (a b : Content) (vs ws : List Val) (it : Item)
    (ha : a.validity = ok () ∧ AllNodes BcastNode a) (hb : b.validity = ok () ∧ AllNodes BcastNode b)
    (hvs : a.toList = ok vs) (hws : b.toList = ok ws) (h : isClose fuel rtol atol a b = ok it) :
    ∃ out ys, it = .array out ∧ out.toList = ok ys ∧ ys.length = max vs.length ws.length ∧
      (vs.length = ys.length ∨ vs.length = 1) ∧ (ws.length = ys.length ∨ ws.length = 1) ∧
      ∀ i, i < ys.length → Close rtol atol (vs[if vs.length = 1 then 0 else i]?.getD .null)
        (ws[if ws.length = 1 then 0 else i]?.getD .null) (ys[i]?.getD .null) := by
  have hga := good_of_validity ha.1
  have hgb := good_of_validity hb.1
  rw [hga.toList] at hvs
  rw [hgb.toList] at hws
  simp only [ok.injEq] at hvs hws; subst hvs; subst hws
  obtain ⟨out, ys, n, h1, h2, h3, h4, h5, h6, h7⟩ := isClose_sound ⟨hga, ha.2⟩ ⟨hgb, hb.2⟩ h
  subst h3
  refine ⟨out, ys, h1, h2, by simpa using h4, by simpa using h5.imp id And.left,
    by simpa using h6.imp id And.left, fun i hi => ?_⟩
  have := h7 i hi
  simp only [List.length_map, List.length_range]
  rw [List.getElem?_eq_getElem (show (if a.len = 1 then 0 else i) < _ by
      simp only [List.length_map, List.length_range]; rcases h5 with h | h <;> split <;> omega),
    List.getElem?_eq_getElem (show (if b.len = 1 then 0 else i) < _ by
      simp only [List.length_map, List.length_range]; rcases h6 with h | h <;> split <;> omega)]
  simpa using this

/-- Lists, one of them missing, and a flat array meet the hypotheses. -/
def closeLists : Content := indexedOption {} [0, -1, 1] (listOffset {} [0, 2, 3] (intArray [10, 12, 30]))

example : closeLists.validity = ok () ∧ AllNodes BcastNode closeLists ∧ ∃ out, isClose 9 0 1 closeLists (intArray [11, 20, 40]) = ok (.array out) ∧
    out.toList = ok [.list [.atom (.bool true), .atom (.bool true)], .null, .list [.atom (.bool false)]] :=
  ⟨rfl, by simp [closeLists, all_indexedOption, all_listOffset, all_numpy, BcastNode, intArray], _, rfl, R.lists (by decide +kernel)⟩

/-- **C96 (partial).** Flat arrays of numbers of the same length are accepted, and compared number by number. -/
theorem C96_flat_partial (fuel : Nat) (hf : 2 ≤ fuel) (rtol atol : Rat) (xs ys : List Rat) (hl : ys.length = xs.length)
    (hn : xs.length < 2 ^ 63 - 1) :
    ∃ out, isClose fuel rtol atol (numpy {} .float64 (xs.map .real)) (numpy {} .float64 (ys.map .real)) = ok (.array out) ∧
      out.toList = ok (List.zipWith (fun x y => .atom (.bool (decide (|x - y| ≤ atol + rtol * |y|)))) xs ys) := by
  obtain ⟨out, h1, h2⟩ := isClose_flat (rtol := rtol) (atol := atol) (p := {}) (q := {}) (t := .float64) (u := .float64)
    (xs := xs.map .real) (ys := ys.map .real) hf (List.length_map _) (by simpa using hl) hn
  refine ⟨out, h1, h2.trans ?_⟩
  rw [List.zipWith_map]
  rfl

/-- **C96 (partial).** A flat array is close to itself in all its numbers, unless a tolerance is negative. -/
theorem C96_self_partial (fuel : Nat) (hf : 2 ≤ fuel) (rtol atol : Rat) (hr : 0 ≤ rtol) (ha : 0 ≤ atol) (xs : List Rat)
    (hn : xs.length < 2 ^ 63 - 1) :
    ∃ out, isClose fuel rtol atol (numpy {} .float64 (xs.map .real)) (numpy {} .float64 (xs.map .real)) = ok (.array out) ∧
      out.toList = ok (List.replicate xs.length (.atom (.bool true))) := by
  obtain ⟨out, h1, h2⟩ := C96_flat_partial fuel hf rtol atol xs xs rfl hn
  refine ⟨out, h1, h2.trans ?_⟩
  congr 1
  apply List.ext_getElem (by simp)
  intro i h3 h4
  have : 0 ≤ atol + rtol * |xs[i]'(by simpa using h4)| := by positivity
  simpa using this

example : ∃ out, isClose 2 (1 / 10) 0 (numpy {} .float64 ([1, 1 / 2, -3].map .real))
      (numpy {} .float64 ([1, 1 / 2, -3].map .real)) = ok (.array out) ∧
    out.toList = ok [.atom (.bool true), .atom (.bool true), .atom (.bool true)] :=
  C96_self_partial 2 (by decide) (1 / 10) 0 (by norm_num) (by norm_num) [1, 1 / 2, -3] (by decide)

end Awk.Props
