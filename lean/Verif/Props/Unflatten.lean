import Verif.Lemmas.Unflatten
import Verif.Lemmas.ValEq
import Verif.Props.List
/-
Property theorems C61: `ak.unflatten`, and its part of C19.
-/

namespace Awk.Props
open Awk Awk.Spec Awk.R Awk.Content

theorem toList_vals {c : Content} (h : c.Good) : c.toList = ok c.vals := h.toList

/-- Packing above the axis. -/
theorem packedAxis_ok (same : Content → Content → Bool) {bare : Bool} {c : Content} (h : c.Good)
    (hp : Packable bare false c) {axis n : Int} (hw : c.axisWrap axis = ok n) :
    ∃ d, c.packedAxis same axis = ok d ∧ Tight bare (some (n + 1).toNat) d c ∧ d.vals = c.vals := by
  obtain ⟨d, h1, h2⟩ := packF_ok same (2 * c.rank + 2) (lv := some (n + 1).toNat) h hp (by omega)
  refine ⟨d, ?_, h2, ?_⟩
  · unfold packedAxis
    rw [hw, bind_ok]
    exact h1
  · unfold vals
    rw [h2.len]
    exact List.map_congr_left fun i hi => h2.vals i (List.mem_range.mp hi)

/-- **C61 (partial).** `unflatten(array, counts)` divides the array into lists of the given lengths,
missing where a count is missing; it raises if, and only if, the counts do not add up to the length of
the array. Missing: unions and the other arrays that cannot be packed (C60), and records for which
`axis=-1` makes no sense (`C61_records_violated`). -/
theorem C61_unflatten_partial (same : Content → Content → Bool) (bare : Bool) (c : Content)
    (h : c.validity = ok ()) (hp : Packable bare false c) (hw : IsOk (c.axisWrap (-1)))
    (vs : List Val) (hv : c.toList = ok vs) (counts : List (Option Nat)) :
    (∀ d, c.unflatten same (.each (counts.map (Option.map Int.ofNat))) 0 = ok d →
      ∃ ys, d.toList = ok ys ∧ Regroups 0 vs ys counts) ∧
    (∀ ys, Regroups 0 vs ys counts →
      ∃ d, c.unflatten same (.each (counts.map (Option.map Int.ofNat))) 0 = ok d) ∧
    c.unflatten same (.each (counts.map (Option.map Int.ofNat))) 0 ≠ ub := by
  have hg := good_of_validity h
  rw [toList_vals hg, ok.injEq] at hv
  subst hv
  obtain ⟨n, hn⟩ := hw
  obtain ⟨e, h1, h2, h3⟩ := packedAxis_ok same hg hp hn
  obtain ⟨hi, ht⟩ := imposes_each counts
  have run : c.unflatten same (.each (counts.map (Option.map Int.ofNat))) 0
      = (imposeCounts (.each (counts.map (Option.map Int.ofNat))) e
          (Counts.offsets (.each (counts.map (Option.map Int.ofNat)))) >>= fun r =>
        if r.2.2 = [0] then ok r.1 else err "structure imposed by 'counts' does not fit") := by
    unfold Content.unflatten
    rw [show ((0 : Nat) : Int) - 1 = -1 by rfl, h1, bind_ok, if_pos rfl, R.bind_assoc]
    rfl
  rw [run]
  refine ⟨?_, ?_, ?_⟩
  · intro d hd
    simp only [bind_eq_ok] at hd
    obtain ⟨⟨out, inner, rest⟩, hr, hd⟩ := hd
    dsimp only at hd
    split at hd
    · rename_i h0
      simp only [ok.injEq] at hd
      subst hd h0
      obtain ⟨cs, rfl, _, _, g1, g2⟩ := hi.sound e out inner h2.good hr
      refine ⟨_, toList_vals g1, .here (splits_iff.mpr ⟨by rw [g2, h3], ?_⟩)⟩
      rw [ht e out inner h2.good hr, vals_length, h2.len]
    · simp at hd
  · intro ys hy
    cases hy with
    | here hy =>
      have hl := (splits_iff.mp hy).2
      rw [vals_length] at hl
      obtain ⟨out, ho⟩ := hi.complete e counts h2.good rfl (by rw [h2.len]; exact hl)
      exact ⟨out, by rw [ho, bind_ok]; rfl⟩
  · cases hr : imposeCounts (.each (counts.map (Option.map Int.ofNat))) e
      (Counts.offsets (.each (counts.map (Option.map Int.ofNat)))) with
    | ub => exact absurd hr (hi.safe e h2.good)
    | err s => simp
    | ok r => rw [bind_ok]; split <;> simp

/-- Below the first axis, for any kind of counts. -/
theorem unflatten_below (same : Content → Content → Bool) {c : Content} (hg : c.Good)
    (hp : Packable true false c) {axis : Nat} (ha : 0 < axis) (hx : ListsTo axis (c.type []))
    {cnt : Counts} {Q : List (Option Nat) → Prop} (hi : Imposes cnt Q)
    (hq : ∀ cs, Q cs → cs = [] ∨ 0 < sizeAt cs 0) :
    (∀ d, c.unflatten same cnt axis = ok d →
      ∃ ys cs, d.toList = ok ys ∧ Q cs ∧ Regroups axis c.vals ys cs) ∧
    (∀ ys cs, Q cs → Regroups axis c.vals ys cs → ∃ d, c.unflatten same cnt axis = ok d) ∧
    c.unflatten same cnt axis ≠ ub := by
  obtain ⟨k, rfl⟩ : ∃ k, axis = k + 1 := ⟨axis - 1, by omega⟩
  have hw : c.axisWrap (k : Int) = ok (k : Int) := by
    unfold axisWrap
    rw [if_pos (by omega)]
  obtain ⟨e, h1, h2, h3⟩ := packedAxis_ok same hg hp hw
  have hO := unflattenF_ok hi hq [] e k h2.good (by simpa using h2.packed) (by rw [h2.type rfl]; exact hx)
  rw [h3] at hO
  have run : c.unflatten same cnt (k + 1) = (unflattenF cnt (k + 1) e cnt.offsets >>= fun r =>
      if r.2 = [0] then ok r.1 else err "structure imposed by 'counts' does not fit") := by
    unfold Content.unflatten
    rw [show ((k + 1 : Nat) : Int) - 1 = (k : Int) by omega, h1, bind_ok, if_neg (by omega)]
  rw [run]
  refine ⟨?_, ?_, ?_⟩
  · intro d hd
    simp only [bind_eq_ok] at hd
    obtain ⟨⟨out, rest⟩, hr, hd⟩ := hd
    dsimp only at hd
    split at hd
    · rename_i h0
      simp only [ok.injEq] at hd
      subst hd h0
      obtain ⟨g1, cs, g2, g3⟩ := hO.sound out hr
      exact ⟨_, cs, toList_vals g1, g2, g3⟩
    · simp at hd
  · intro ys cs hQ hR
    obtain ⟨c', hc'⟩ := hO.complete ys cs hQ hR
    exact ⟨c', by rw [hc', bind_ok]; rfl⟩
  · cases hr : unflattenF cnt (k + 1) e cnt.offsets with
    | ub => exact absurd hr hO.safe
    | err s => simp
    | ok r => rw [bind_ok]; split <;> simp

/-- **C61 (partial).** `unflatten(array, counts, axis)` divides the lists at the given depth into lists
of the given lengths, and keeps everything around them; it raises if, and only if, the counts do not
fit into the lists. Missing: counts whose first is zero or missing (`C61_leading_zero_violated`),
records, unions and lists of fixed size around the divided ones. -/
theorem C61_unflatten_axis_partial (same : Content → Content → Bool) (c : Content)
    (h : c.validity = ok ()) (hp : Packable true false c) (axis : Nat) (ha : 0 < axis)
    (hx : ListsTo axis (c.type [])) (vs : List Val) (hv : c.toList = ok vs)
    (counts : List (Option Nat)) (h0 : counts.head? ≠ some none ∧ counts.head? ≠ some (some 0)) :
    (∀ d, c.unflatten same (.each (counts.map (Option.map Int.ofNat))) axis = ok d →
      ∃ ys, d.toList = ok ys ∧ Regroups axis vs ys counts) ∧
    (∀ ys, Regroups axis vs ys counts →
      ∃ d, c.unflatten same (.each (counts.map (Option.map Int.ofNat))) axis = ok d) ∧
    c.unflatten same (.each (counts.map (Option.map Int.ofNat))) axis ≠ ub := by
  have hg := good_of_validity h
  rw [toList_vals hg, ok.injEq] at hv
  subst hv
  obtain ⟨g1, g2, g3⟩ := unflatten_below same hg hp ha hx (imposes_each counts).1 (by
    rintro cs rfl
    match cs, h0 with
    | [], _ => exact .inl rfl
    | none :: _, h0 => simp at h0
    | some 0 :: _, h0 => simp at h0
    | some (n + 1) :: _, _ => exact .inr (by simp [sizeAt]))
  refine ⟨fun d hd => ?_, fun ys => g2 ys counts rfl, g3⟩
  obtain ⟨ys, cs, w1, rfl, w2⟩ := g1 d hd
  exact ⟨ys, w1, w2⟩

/-- **C61 (partial).** `unflatten(array, n)` divides an array into lists of size `n`, if its length is
a positive multiple of `n`; see `C61_remainder_violated`. -/
theorem C61_size_partial (same : Content → Content → Bool) (bare : Bool) (c : Content)
    (h : c.validity = ok ()) (hp : Packable bare false c) (hw : IsOk (c.axisWrap (-1)))
    (vs : List Val) (hv : c.toList = ok vs) (n m : Nat) (hn : 0 < n) (hm : 0 < m)
    (hl : vs.length = m * n) :
    ∃ d ys, c.unflatten same (.size n) 0 = ok d ∧ d.toList = ok ys ∧
      Regroups 0 vs ys (List.replicate m (some n)) := by
  have hg := good_of_validity h
  rw [toList_vals hg, ok.injEq] at hv
  subst hv
  obtain ⟨k, hk⟩ := hw
  obtain ⟨e, h1, h2, h3⟩ := packedAxis_ok same hg hp hk
  rw [vals_length] at hl
  have hle : n ≤ e.len := by rw [h2.len, hl]; exact Nat.le_mul_of_pos_left n hm
  obtain ⟨out, inner, g1, g2, g3⟩ := (imposes_size hn).2 e h2.good hle
  refine ⟨out, out.vals, ?_, toList_vals g2, .here (splits_iff.mpr ⟨?_, ?_⟩)⟩
  · unfold Content.unflatten
    rw [show ((0 : Nat) : Int) - 1 = -1 by rfl, h1, bind_ok, if_pos rfl]
    show ((imposeCounts (.size n) e [0] >>= fun r => ok (r.1, r.2.2)) >>= _) = _
    rw [g1]
    rfl
  · rw [g3, h3, h2.len, hl, Nat.mul_div_cancel _ hn]
  · rw [vals_length, hl]; simp [total]

/-- **C61 (partial).** `unflatten(array, n, axis)` with a positive integer divides the lists at the given
depth into lists of size `n`, and raises if, and only if, this is not possible or there is nothing to
divide. -/
theorem C61_size_axis_partial (same : Content → Content → Bool) (c : Content)
    (h : c.validity = ok ()) (hp : Packable true false c) (axis : Nat) (ha : 0 < axis)
    (hx : ListsTo axis (c.type [])) (vs : List Val) (hv : c.toList = ok vs) (n : Nat) (hn : 0 < n) :
    (∀ d, c.unflatten same (.size n) axis = ok d →
      ∃ ys m, d.toList = ok ys ∧ Regroups axis vs ys (List.replicate m (some n))) ∧
    (∀ ys m, 0 < m → Regroups axis vs ys (List.replicate m (some n)) →
      ∃ d, c.unflatten same (.size n) axis = ok d) ∧
    c.unflatten same (.size n) axis ≠ ub := by
  have hg := good_of_validity h
  rw [toList_vals hg, ok.injEq] at hv
  subst hv
  obtain ⟨g1, g2, g3⟩ := unflatten_below same hg hp ha hx (imposes_size hn).1 (by
    rintro cs ⟨hne, hall⟩
    match cs, hne, hall with
    | x :: _, _, hall =>
      have := hall x (by simp)
      subst this
      exact .inr (by simpa [sizeAt] using hn))
  refine ⟨fun d hd => ?_, fun ys m hm => g2 ys _ ⟨?_, fun x hx => List.eq_of_mem_replicate hx⟩, g3⟩
  · obtain ⟨ys, cs, w1, ⟨_, w3⟩, w2⟩ := g1 d hd
    rw [List.eq_replicate_iff.mpr ⟨rfl, w3⟩] at w2
    exact ⟨ys, _, w1, w2⟩
  · intro h0
    have := congrArg List.length h0
    simp at this
    omega

/-- Lists of numbers, in any order, of which one is missing. -/
def unflattenExample : Content :=
  .indexedOption {} [2, -1, 0, 1] (.listArray {} [3, 7, 0] [5, 7, 3]
    (.numpy {} .int64 ((List.range 6).map (fun (i : Nat) => .int (10 * i)))))

example : unflattenExample.validity = ok () ∧ Packable true false unflattenExample ∧
    IsOk (unflattenExample.axisWrap (-1)) ∧ ListsTo 1 (unflattenExample.type []) := by
  refine ⟨rfl, ?_, ⟨_, rfl⟩, ?_⟩
  · simp [unflattenExample, Packable, isOption]
  · refine ⟨?_, ?_, trivial⟩ <;> decide

example : unflattenExample.toList = ok
    [.list [.atom (.int 0), .atom (.int 10), .atom (.int 20)], .null,
     .list [.atom (.int 30), .atom (.int 40)], .list []] := R.lists (by decide +kernel)

/-- Divided at axis 1, with an empty list between the others. -/
example : (unflattenExample.unflatten (fun _ _ => false) (.each [some 1, some 2, some 0, some 2]) 1 >>=
      fun d => d.toList) = ok
    [.list [.list [.atom (.int 0)], .list [.atom (.int 10), .atom (.int 20)], .list []], .null,
     .list [.list [.atom (.int 30), .atom (.int 40)]], .list []] := R.lists (by decide +kernel)

/-- Divided at axis 0, with a missing list. -/
example : (unflattenExample.unflatten (fun _ _ => false) (.each [some 1, none, some 3]) 0 >>=
      fun d => d.toList) = ok
    [.list [.list [.atom (.int 0), .atom (.int 10), .atom (.int 20)]], .null,
     .list [.null, .list [.atom (.int 30), .atom (.int 40)], .list []]] := R.lists (by decide +kernel)

/-- Counts that go across two lists. -/
example : (unflattenExample.unflatten (fun _ _ => false) (.each [some 2, some 3]) 1).IsErr :=
  R.raises (by decide +kernel)

/-- Records with a number and a list. -/
def unevenRecords : Content :=
  .record {} (some ["x", "y"]) [.numpy {} .int64 [.int 1, .int 2],
    .listOffset {} [0, 1, 3] (.numpy {} .int64 [.int 3, .int 4, .int 5])] 2

/-- **C61 (violated).** Two records, with a number and a list each, cannot be divided into one list
of two: `unflatten` packs the array with `axis=-1` first, and that raises. -/
theorem C61_records_violated (same : Content → Content → Bool) :
    unevenRecords.validity = ok () ∧ Packable true false unevenRecords ∧
    (∃ vs ys, unevenRecords.toList = ok vs ∧ Regroups 0 vs ys [some 2]) ∧
    (unevenRecords.unflatten same (.each [some 2]) 0).IsErr :=
  ⟨rfl, by simp [unevenRecords, Packable, PackableAll], ⟨_, _, rfl, .here (.list (xs := [_, _]) .nil)⟩,
    _, rfl⟩

/-- Three numbers. -/
def threeNumbers : Content := .numpy {} .int64 [.int 1, .int 2, .int 3]

/-- **C61 (violated).** `unflatten([1, 2, 3], 2)` does not raise, but loses the last number. -/
theorem C61_remainder_violated (same : Content → Content → Bool) :
    threeNumbers.validity = ok () ∧
    (threeNumbers.unflatten same (.size 2) 0 >>= fun d => d.toList)
      = ok [.list [.atom (.int 1), .atom (.int 2)]] ∧
    (threeNumbers.unflatten same (.size 0) 0 >>= fun d => d.toList) = ok [] :=
  ⟨rfl, rfl, rfl⟩

/-- A list of two numbers. -/
def oneList : Content := .listOffset {} [0, 2] (.numpy {} .int64 [.int 1, .int 2])

/-- **C61 (violated).** `unflatten([[1, 2]], [0, 2], axis=1)` is `[[[1, 2]]]`: the empty list that
comes first is lost, although the counts fit. -/
theorem C61_leading_zero_violated (same : Content → Content → Bool) :
    oneList.validity = ok () ∧
    Regroups 1 [.list [.atom (.int 1), .atom (.int 2)]]
      [.list [.list [], .list [.atom (.int 1), .atom (.int 2)]]] [some 0, some 2] ∧
    (oneList.unflatten same (.each [some 0, some 2]) 1 >>= fun d => d.toList)
      = ok [.list [.list [.atom (.int 1), .atom (.int 2)]]] :=
  ⟨rfl, .list (counts' := []) (.here (.list (xs := []) (.list (xs := [_, _]) .nil))) .nil, rfl⟩

/-- **C61 (violated).** Negative counts are accepted, if the sum is right, and the array that is made
of them is not valid. -/
theorem C61_negative_violated (same : Content → Content → Bool) :
    ∃ d, threeNumbers.unflatten same (.each [some (-1), some 4]) 0 = ok d ∧ d.validity.IsErr :=
  ⟨_, rfl, _, rfl⟩

/-- **C61 (violated).** Lists that are all empty cannot be divided into lists of size 2, because no
count larger than the number of items is accepted. -/
theorem C61_nothing_violated (same : Content → Content → Bool) :
    (Content.listOffset {} [0, 0] (.numpy {} .int64 [])).validity = ok () ∧
    (Content.listOffset {} [0, 0] (.numpy {} .int64 [])).toList = ok [.list []] ∧
    Regroups 1 [.list []] [.list []] (List.replicate 0 (some 2)) ∧
    ((Content.listOffset {} [0, 0] (.numpy {} .int64 [])).unflatten same (.size 2) 1).IsErr :=
  ⟨rfl, rfl, .list (counts' := []) (.here .nil) .nil, _, rfl⟩

/-- A number of items as a count. -/
def asCount : Val → Option Nat
  | .atom (.int n) => some n.toNat
  | _ => none

/-- **C19 (partial).** `unflatten(flatten(array), num(array))` gives the array back: the same lists and
the same missing lists. Missing: flattened arrays that cannot be packed (C60), and the records of
`C19_unflatten_violated`. -/
theorem C19_unflatten_partial (same : Content → Content → Bool) (bare : Bool) (c d : Content)
    (h : c.validity = ok ()) (hl : ListLike c) (hx : HasAxis false true 1 c) (vs : List Val)
    (hv : c.toList = ok vs) (hs : ∀ v ∈ vs, v = .null ∨ ∃ xs, v = .list xs)
    (hd : c.flatten = ok d) (hvd : d.validity = ok ()) (hp : Packable bare false d)
    (hw : IsOk (d.axisWrap (-1))) :
    ∃ k ks r, c.num 1 = ok (.array k) ∧ k.toList = ok ks ∧
      d.unflatten same (.each ((ks.map asCount).map (Option.map Int.ofNat))) 0 = ok r ∧
      r.toList = ok vs := by
  obtain ⟨k, h1, h2⟩ := C19_num c h hl hx vs hv
  obtain ⟨_, d', e1, e2⟩ := C19_flatten c h hl vs hv
  rw [hd, ok.injEq] at e1
  subst e1
  have hsp : ∀ vs : List Val, (∀ v ∈ vs, v = .null ∨ ∃ xs, v = .list xs) →
      Splits ((vs.map Val.items).flatten) vs ((vs.map (fun v =>
        if v.isNull then Val.null else .atom (.int v.items.length))).map asCount) := by
    intro vs
    induction vs with
    | nil => intro _; exact .nil
    | cons v vs ih =>
      intro hs
      have hr := ih fun w hw => hs w (List.mem_cons_of_mem _ hw)
      rcases hs v (by simp) with rfl | ⟨xs, rfl⟩
      · simpa [Val.items, Val.isNull, asCount] using Splits.missing hr
      · simpa [Val.items, Val.isNull, asCount] using Splits.list (xs := xs) hr
  obtain ⟨g1, g2, _⟩ := C61_unflatten_partial same bare d hvd hp hw _ e2
    ((vs.map (fun v => if v.isNull then Val.null else .atom (.int v.items.length))).map asCount)
  obtain ⟨r, hr⟩ := g2 vs (.here (hsp vs hs))
  obtain ⟨ys, hy, hR⟩ := g1 r hr
  refine ⟨k, _, r, h1, h2, hr, ?_⟩
  cases hR with
  | here hR =>
    rw [hy, (splits_iff.mp hR).1, ← (splits_iff.mp (hsp vs hs)).1]

/-- The lists of `exampleLists` are flattened and put back. -/
example : ∃ d, exampleLists.flatten = ok d ∧ d.validity = ok () ∧ Packable true false d ∧
    IsOk (d.axisWrap (-1)) :=
  ⟨_, rfl, rfl, trivial, _, rfl⟩

/-- **C19 (violated).** A list of two records, with a number and a list each: `flatten` works, but
`unflatten` raises. -/
theorem C19_unflatten_violated (same : Content → Content → Bool) :
    (Content.listOffset {} [0, 2] unevenRecords).validity = ok () ∧
    ∃ d k, (Content.listOffset {} [0, 2] unevenRecords).flatten = ok d ∧
      (Content.listOffset {} [0, 2] unevenRecords).num 1 = ok (.array k) ∧
      k.toList = ok [.atom (.int 2)] ∧ (d.unflatten same (.each [some 2]) 0).IsErr :=
  ⟨rfl, _, _, rfl, rfl, rfl, _, rfl⟩

end Awk.Props
