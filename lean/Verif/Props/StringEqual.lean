import Verif.Spec.StringEqual
import Verif.Lemmas.StringEqual
import Verif.Lemmas.ValDec
import Verif.Props.Zip
/-
C76: `==` between arrays of strings. C68: element-wise functions accept lists of the same lengths.
-/

namespace Awk.Props
open Awk R Content Spec

theorem StringArray.isStrings {kind : ArrKind} {c : Content} (hs : StringArray kind c) (hv : c.validity = ok ()) :
    ∃ p data, p.arr = kind ∧ p.recName = none ∧ IsStrings p data c := by
  have hg := good_of_validity hv
  cases c <;> simp only [StringArray] at hs
  case listOffset p o d =>
    cases d <;> simp only [StringArray] at hs
    rename_i q dt data
    obtain ⟨h1, h2, rfl, h3, h4, h5⟩ := hs
    refine ⟨p, data, h1, h2, hg, ⟨q, .inl ⟨o, rfl⟩⟩, ?_, ?_, h4⟩
    · intro p' o' d' he x hx
      simp only [listOffset.injEq] at he
      obtain ⟨_, rfl, rfl⟩ := he
      exact h5 x hx
    · intro x hx
      obtain ⟨b, rfl⟩ := h3 x hx
      simp [Spec.OfType]
  case listArray p s t d =>
    cases d <;> simp only [StringArray] at hs
    rename_i q dt data
    obtain ⟨h1, h2, rfl, h3, h4⟩ := hs
    refine ⟨p, data, h1, h2, hg, ⟨q, .inr ⟨s, t, rfl⟩⟩, ?_, ?_, h4⟩
    · intro p' o' d' he x hx
      cases he
    · intro x hx
      obtain ⟨b, rfl⟩ := h3 x hx
      simp [Spec.OfType]

theorem wrapList_strings {p q : Params} {kind : ArrKind} (hk : kind = .string ∨ kind = .bytestring)
    (hp : p.arr = kind) (hq : q.arr = kind) (as bs : List Atom) :
    (wrapList p (as.map .atom) = wrapList q (bs.map .atom)) ↔ as = bs := by
  have hinj : ∀ as bs : List Atom, as.map Val.atom = bs.map Val.atom → as = bs := by
    intro as bs h
    exact List.map_injective_iff.mpr (fun a b h => by simpa using h) h
  unfold wrapList
  rcases hk with rfl | rfl <;> rw [hp, hq] <;> simp only [Val.str.injEq, Val.bytes.injEq] <;>
    exact ⟨hinj as bs, fun h => by rw [h]⟩

/-- **C76.** Comparing two arrays of strings (or of bytestrings) of the same length with `==` gives an array of
booleans: in every row, whether the two strings are the same. A single string is compared with all strings of a
longer array. Strings of different lengths, also empty ones, are different.

Partial: arrays of fixed-size strings; strings with bytestrings; strings inside of lists, options or records. -/
theorem C76_string_equal_partial (fuel : Nat) (hf : 3 ≤ fuel) (kind : ArrKind)
    (hk : kind = .string ∨ kind = .bytestring) (one two : Content) (vs ws : List Val)
    (h1 : one.validity = ok () ∧ StringArray kind one) (h2 : two.validity = ok () ∧ StringArray kind two)
    (hvs : one.toList = ok vs) (hws : two.toList = ok ws)
    (hl : vs.length = ws.length ∨ (vs.length = 1 ∧ 1 < ws.length) ∨ (ws.length = 1 ∧ 1 < vs.length)) :
    ∃ out, equalArrays fuel one two = ok (.array out) ∧
      out.toList = ok ((List.range (max vs.length ws.length)).map
        (fun i => .atom (.bool (decide (rowOf vs i = rowOf ws i))))) := by
  obtain ⟨p1, data1, k1, r1, s1⟩ := StringArray.isStrings h1.2 h1.1
  obtain ⟨p2, data2, k2, r2, s2⟩ := StringArray.isStrings h2.2 h2.1
  rw [s1.good.toList] at hvs
  rw [s2.good.toList] at hws
  simp only [ok.injEq] at hvs hws
  have hl1 : vs.length = one.len := by rw [← hvs]; simp
  have hl2 : ws.length = two.len := by rw [← hws]; simp
  obtain ⟨k, rfl⟩ : ∃ k, fuel = k + 3 := ⟨fuel - 3, by omega⟩
  obtain ⟨out, A, B, e1, e2, e3, e4⟩ := equalArrays_ok (k := k) (N := max vs.length ws.length) s1 s2
    (by rw [k1, k2]; rcases hk with rfl | rfl <;> simp) r1 r2 (by rw [hl1, hl2]) (by omega) (by omega)
  refine ⟨out, e3, ?_⟩
  rw [e4]
  congr 1
  refine List.map_congr_left (fun i hi => ?_)
  have hi := List.mem_range.mp hi
  have row : ∀ {c : Content} {us : List Val}, (List.range c.len).map c.valD = us → us.length = c.len →
      (us.length = 1 ∨ i < us.length) → rowOf us i = c.valD (if c.len = 1 then 0 else i) := by
    intro c us h hl hi
    unfold rowOf
    rw [← hl]
    have : (if us.length = 1 then 0 else i) < us.length := by split <;> omega
    generalize (if us.length = 1 then 0 else i) = j at this
    rw [← h]
    have : j < c.len := by omega
    simp [this]
  rw [row hvs hl1 (by omega), row hws hl2 (by omega), e1 i hi, e2 i hi]
  simp only [wrapList_strings hk k1 k2]

/-- Three strings, "ab", "" and "cd". -/
def threeStrings : Content :=
  listOffset { arr := .string } [0, 2, 2, 4] (numpy { arr := .char } .uint8 [.int 97, .int 98, .int 99, .int 100])

/-- The single string "cd". -/
def oneString : Content := listArray { arr := .string } [2] [4] (numpy { arr := .char } .uint8 [.int 0, .int 0, .int 99, .int 100])

theorem twoStringArrays : (threeStrings.validity = ok () ∧ StringArray .string threeStrings) ∧
    (oneString.validity = ok () ∧ StringArray .string oneString) := by
  refine ⟨⟨rfl, ?_⟩, rfl, ?_⟩ <;> simp [threeStrings, oneString, StringArray]

example : ∃ out, equalArrays 3 threeStrings oneString = ok (.array out) ∧
    out.toList = ok [.atom (.bool false), .atom (.bool false), .atom (.bool true)] :=
  C76_string_equal_partial 3 (by omega) .string (.inl rfl) threeStrings oneString
    [.str [.atom (.int 97), .atom (.int 98)], .str [], .str [.atom (.int 99), .atom (.int 100)]]
    [.str [.atom (.int 99), .atom (.int 100)]] twoStringArrays.1 twoStringArrays.2 (R.lists (by decide +kernel))
    (R.lists (by decide +kernel)) (.inr (.inr (by decide)))

/-- **C76 is violated:** an array of strings of any other length can be compared with a single string, but an array
without strings cannot. (All strings that are filtered out are an example.) -/
theorem C76_empty_violated :
    ∃ one two : Content, one.validity = ok () ∧ StringArray .string one ∧ one.toList = ok [] ∧
      two.validity = ok () ∧ StringArray .string two ∧ (∃ v, two.toList = ok [v]) ∧
      (equalArrays 9 one two).IsErr := by
  refine ⟨listOffset { arr := .string } [0] (numpy { arr := .char } .uint8 []), oneString, rfl, ?_, rfl, rfl, ?_,
    ⟨.str [.atom (.int 99), .atom (.int 100)], R.lists (by decide +kernel)⟩, ⟨_, rfl⟩⟩
  · simp [StringArray]
  · simp [StringArray, oneString]

/-! ### C68: lists -/

/-- **C68, lists are accepted.** An element-wise function applies to all flat arrays of numbers and arrays of
lists of numbers of the same nonzero length if the lists in every row have the same length. (By
`C68_elementwise_partial` the result then has the values of the function.)

Partial: more deeply nested lists, for which `C43_hidden_violated` shows that they can be refused. -/
theorem C68_lists_partial (f : List Atom → Atom) (dt : DType) (fuel n : Nat) (hf : 3 ≤ fuel) (hn : 0 < n)
    (cs : List Content) (vss : List (List Val)) (hne : cs ≠ [])
    (hv : ∀ c ∈ cs, c.validity = ok () ∧ FlatOrLists c)
    (hb : ∀ c ∈ cs, AllNodes (fun d => d.params.arr = .none ∧ d.params.recName = none) c)
    (hin : mapR toList cs = ok vss) (hl : ∀ vs ∈ vss, vs.length = n)
    (ha : ∀ i, i < n → ∃ k, ∀ vs ∈ vss, ∀ xs, vs[i]? = some (.list xs) → xs.length = k) :
    ∃ out ys, elementwise f dt fuel cs = ok (.array out) ∧ out.toList = ok ys ∧ ys.length = n ∧
      ∀ i, i < n → Elementwise f (vss.map (fun vs => vs[i]?.getD .null)) (ys[i]?.getD .null) := by
  have hg : ∀ c ∈ cs, c.Good := fun c hc => good_of_validity (hv c hc).1
  have hun : ∀ c ∈ cs, UnnamedIn c := by
    intro c hc
    refine ⟨hg c hc, ?_⟩
    have h1 := (hv c hc).2.nodes
    have h2 := hb c hc
    clear hin
    suffices h : ∀ c : Content, AllNodes BcastNode c →
        AllNodes (fun d => d.params.arr = .none ∧ d.params.recName = none) c → AllNodes UnnamedNode c from h c h1 h2
    intro c h1
    induction h1 with
    | mk h0 _ ih =>
      intro h2
      refine .mk ⟨h0, ?_⟩ (fun d hd => ih d hd (h2.child hd))
      have := h2.here
      split
      · exact this
      · trivial
  have hbeh : ∀ c ∈ cs, c.hasBehavior = false := by
    intro c hc
    have := (hb c hc).here
    simp [hasBehavior, this]
  have hval : ∀ c ∈ cs, ∃ vs ∈ vss, vs = (List.range c.len).map c.valD := by
    intro c hc
    rw [mapR_forall₂] at hin
    obtain ⟨vs, hvs, h⟩ := fa2_left hin hc
    rw [(hg c hc).toList] at h
    simp only [ok.injEq] at h
    exact ⟨vs, hvs, h.symm⟩
  have hlen : ∀ c ∈ cs, c.len = n := by
    intro c hc
    obtain ⟨vs, hvs, h⟩ := hval c hc
    have := hl vs hvs
    rw [h] at this
    simpa using this
  have hok : ∃ out, elementwise f dt fuel cs = ok (.array out) := by
    by_cases hj : ∃ c ∈ cs, c.isJagged = true
    · obtain ⟨c0, hc0, hj0⟩ := hj
      obtain ⟨k, rfl⟩ : ∃ k, fuel = k + 3 := ⟨fuel - 3, by omega⟩
      obtain ⟨out, h, _⟩ := elementwise_lists (f := f) (dt := dt) (k := k) hn hun (fun c hc => (hv c hc).2) hbeh hlen
        (fun i hi => by
          obtain ⟨k, hk⟩ := ha i hi
          refine ⟨k, fun c hc xs hx => ?_⟩
          obtain ⟨vs, hvs, h⟩ := hval c hc
          refine hk vs hvs xs ?_
          rw [h, List.getElem?_eq_getElem (by simpa [hlen c hc] using hi)]
          simpa using hx) hc0 hj0
      exact ⟨out, h⟩
    · have hnum : ∀ c ∈ cs, ∃ d : Params × DType × List Atom, c = numpy d.1 d.2.1 d.2.2 := by
        intro c hc
        rcases (hv c hc).2.cases with h | h
        · cases c <;> simp only [isNumpy, Bool.false_eq_true] at h
          exact ⟨(_, _, _), rfl⟩
        · exact absurd ⟨c, hc, h.1⟩ hj
      have : ∃ ds : List (Params × DType × List Atom), cs = ds.map (fun d => numpy d.1 d.2.1 d.2.2) := by
        clear hin hlen hval hl ha hbeh hun hg hb hv hj hne
        induction cs with
        | nil => exact ⟨[], rfl⟩
        | cons c cs ih =>
          obtain ⟨d, rfl⟩ := hnum c (by simp)
          obtain ⟨ds, rfl⟩ := ih (fun c hc => hnum c (by simp [hc]))
          exact ⟨d :: ds, rfl⟩
      obtain ⟨ds, rfl⟩ := this
      obtain ⟨out, h, _⟩ := elementwise_flat (n := n) f dt (show 1 ≤ fuel by omega) ds (by simpa using hne)
        (fun d hd => hlen _ (List.mem_map.mpr ⟨d, hd, rfl⟩))
      exact ⟨out, h⟩
  obtain ⟨out, hout⟩ := hok
  obtain ⟨out', ys, h1, h2, ⟨vs, hvs, h3⟩, _, h5⟩ := C68_elementwise_partial f dt fuel cs vss _ hne
    (fun c hc => ⟨(hv c hc).1, (hv c hc).2.nodes⟩) hin hout
  have hys : ys.length = n := by rw [← h3]; exact hl vs hvs
  simp only [Item.array.injEq] at h1
  subst h1
  refine ⟨out, ys, hout, h2, hys, fun i hi => ?_⟩
  have := h5 i (by omega)
  rwa [show vss.map (fun vs => vs[if vs.length = 1 then 0 else i]?.getD .null)
      = vss.map (fun vs => vs[i]?.getD .null) from List.map_congr_left (fun vs hvs => by
    have := hl vs hvs
    rw [show (if vs.length = 1 then 0 else i) = i by split <;> omega])] at this

example : ∃ out, elementwise addInts .int64 3 [listOffset {} [0, 2, 2, 3] (intArray [1, 2, 3]), intArray [10, 20, 30],
      listArray {} [1, 0, 0] [3, 0, 1] (intArray [5, 6, 7])] = ok (.array out) := ⟨_, rfl⟩

end Awk.Props
