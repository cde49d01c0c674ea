import Verif.Lemmas.SortLocal
import Verif.Lemmas.ReduceThree
/-
`Content::sort` and `Content::argsort` at the innermost dimension.
-/

namespace Awk
open R
namespace Content
open Spec (Nested)

variable {dt : DType} {a : SortArgs}

/-- The end of `Content::sort`: the only element of the result. -/
def finish (o : Content) : R Item :=
  if o.len = 0 then o.nothingOf >>= fun x => ok (.array x) else o.getitemAtNowrap 0

/-- The result in a RegularArray of one element. -/
def Boxed (a : SortArgs) (d : Nat) (c o : Content) : Prop :=
  (c.len = 0 → o.len = 0 ∧ ∃ x, o.nothingOf = ok x ∧ x.toList = ok []) ∧
  (0 < c.len → ∃ x zeros, o = regular {} x c.len zeros ∧ x.Good ∧ x.len = c.len ∧ x.isOptionOrIndexed = false ∧
    Spec.AtDepth (LeafRel a) d (c.seg 0 c.len) (x.seg 0 c.len))

/-- The result of `Content::sort`. -/
def Finished (a : SortArgs) (d : Nat) (c o : Content) : Prop :=
  ∃ x ys, o.finish = ok (.array x) ∧ x.toList = ok ys ∧ Spec.AtDepth (LeafRel a) d (c.seg 0 c.len) ys

theorem sumTo_one (n : Nat) : sumTo (fun _ => n) 1 = n := by simp [sumTo]

theorem range_none {c : Content} (h : c.Good) : ∃ x, c.range 0 0 = ok x ∧ x.toList = ok [] := by
  obtain ⟨t, t1, t2, _, t4, _⟩ := range_good h (a := 0) (b := 0) (by omega) (by omega)
  refine ⟨t, t1, ?_⟩
  rw [t2.toList, t4.1]; rfl

theorem range_whole {c : Content} (h : c.Good) {n : Nat} (hn : n ≤ c.len) :
    ∃ x, c.range 0 n = ok x ∧ x.toList = ok (c.seg 0 n) := by
  obtain ⟨t, t1, t2, _, t4, _⟩ := range_good h (a := 0) (b := n) (by omega) hn
  refine ⟨t, t1, ?_⟩
  rw [t2.toList, t4.1]
  congr 1
  unfold seg
  rw [Nat.sub_zero]
  apply map_range_congr
  intro i hi
  rw [t4.valD (by omega)]

theorem regular_one {p : Params} {x : Content} {n zeros : Nat} (h : x.Good) (hn : 0 < n) (hl : x.len = n) :
    (regular p x n zeros).len = 1 ∧ ∃ y, (regular p x n zeros).getitemAtNowrap 0 = ok (.array y) ∧
      y.toList = ok (x.seg 0 n) := by
  refine ⟨by simp only [len, hl]; rw [if_pos (by omega), Nat.div_self hn], ?_⟩
  obtain ⟨y, y1, y2⟩ := range_whole h (n := n) (by omega)
  refine ⟨y, ?_, y2⟩
  simp only [getitemAtNowrap]
  simp only [Nat.cast_zero, Int.zero_mul, Int.zero_add, Int.one_mul]
  rw [y1, bind_ok]

theorem Boxed.finished {d : Nat} {c o : Content} (h : Boxed a d c o) : Finished a d c o := by
  by_cases h0 : c.len = 0
  · obtain ⟨h1, x, h2, h3⟩ := h.1 h0
    refine ⟨x, [], ?_, h3, ?_⟩
    · unfold finish; rw [if_pos h1, h2, bind_ok]
    · rw [h0]; exact atDepth_nil d
  · obtain ⟨x, zeros, rfl, h2, h3, _, h4⟩ := h.2 (by omega)
    obtain ⟨k1, y, k2, k3⟩ := regular_one (p := {}) (zeros := zeros) h2 (show 0 < c.len by omega) h3
    refine ⟨y, _, ?_, k3, h4⟩
    unfold finish; rw [if_neg (by omega), k2]

theorem nothing_finished {d : Nat} {c : Content} (h : c.Good) (h0 : c.len = 0)
    (hk : (∃ p d, c = empty p ∨ c = unmasked p d) ∨ (∃ p i d, c = indexed p i d ∨ c = indexedOption p i d)) :
    Finished a d c (if a.arg then numpy {} .int64 [] else c) := by
  have key : ∀ o : Content, o.len = 0 → (∃ x, o.nothingOf = ok x ∧ x.toList = ok []) → Finished a d c o := by
    rintro o h1 ⟨x, h2, h3⟩
    refine ⟨x, [], ?_, h3, by rw [h0]; exact atDepth_nil d⟩
    unfold finish; rw [if_pos h1, h2, bind_ok]
  cases a.arg with
  | true => exact key _ rfl ⟨_, rfl, rfl⟩
  | false =>
    refine key _ h0 ?_
    rcases hk with ⟨p, d, rfl | rfl⟩ | ⟨p, i, d, rfl | rfl⟩
    · exact ⟨_, rfl, rfl⟩
    all_goals exact range_none (h.child (by simp [children]))

/-- A ListOffsetArray in the RegularArray of one element. -/
theorem boxed_listOffset {fuel : Nat} {p : Params} {offsets : List Int} {d : Content} {n : Nat} {b : Bool}
    {parents : List Int} (h : (listOffset p offsets d).Good) (hn : Nums dt (n + 1) b (listOffset p offsets d))
    (hf : d.rank ≤ fuel) (hs : Spec.Sortable a.stable n ((listOffset p offsets d).seg 0 (listOffset p offsets d).len)) :
    ∃ o, sortNext a (fuel + 1) 1 [0] parents 1 true (listOffset p offsets d) = ok o ∧
      Boxed a n (listOffset p offsets d) o ∧
      (0 < (listOffset p offsets d).len → ∃ q x size zeros, o = regular {} (listOffset q offsets x) size zeros ∧
        ¬ (q.arr = .string ∨ q.arr = .bytestring) ∧ ∀ y ∈ offsets, 0 ≤ y ∧ y ≤ (x.len : Int)) := by
  by_cases h0 : (listOffset p offsets d).len = 0
  · refine ⟨_, by simp only [sortNext]; rw [if_pos h0], ⟨fun _ => ⟨h0, ?_⟩, fun h => by omega⟩, fun h => by omega⟩
    exact range_none (h.child (by simp [children]))
  · obtain ⟨q, x, e1, e2, e3, e4, e5⟩ := sort_listOffset (sort_ok fuel) (a := a)
      (m := fun _ => (listOffset p offsets d).len) (out := 1) (starts := [0]) (parents := parents) (outlength := 1) true h hn hf
      (by omega) (by rw [sumTo_one]) (by
        intro g hg
        obtain rfl : g = 0 := by omega
        exact hs)
    rw [if_pos rfl] at e1
    refine ⟨_, e1, ⟨fun h => absurd h h0, fun _ => ⟨_, _, rfl, e2, rfl, rfl, ?_⟩⟩, fun _ => ⟨_, _, _, _, rfl, e3, e4⟩⟩
    exact e5 0 (by omega)

theorem boxed_plain {fuel : Nat} {c : Content} {n : Nat} (h : c.Good) (hn : Nums dt n false c) (hf : c.rank ≤ fuel)
    (hs : Spec.Sortable a.stable (n - 1) (c.seg 0 c.len)) :
    ∃ o, sortNext a fuel 1 [0] (nats (fun _ => 0) c.len) 1 true c = ok o ∧ Boxed a (n - 1) c o := by
  obtain ⟨f, rfl⟩ : ∃ f, fuel = f + 1 := ⟨fuel - 1, by cases hn <;> simp only [rank] at hf <;> omega⟩
  have leaf : n = 1 → ∃ o, sortNext a (f + 1) 1 [0] (nats (fun _ => 0) c.len) 1 true c = ok o ∧ Boxed a (n - 1) c o := by
    intro hn1
    subst hn1
    obtain ⟨q, dt', ys, e1, e2, e3⟩ := sort_leaf (a := a) (fuel := f) (starts := [0]) (negaxis := 1) (outlength := 1)
      (m := fun _ => c.len) (out := 1) hn (by rw [sumTo_one]) (by
        intro g hg
        obtain rfl : g = 0 := by omega
        exact hs) true
    rw [blk_one] at e1
    refine ⟨_, e1, ?_, ?_⟩
    · intro h0
      have hy : ys = [] := List.eq_nil_of_length_eq_zero (by omega)
      subst hy
      by_cases ha : a.arg = false
      · rw [if_neg (by simp [h0, ha])]
        exact ⟨rfl, _, rfl, rfl⟩
      · rw [if_pos (by simp [h0, ha]), h0]
        exact ⟨rfl, range_none (good_numpy _ _ _)⟩
    · intro h0
      rw [if_pos (by simp; omega)]
      have hd : c.len / [(0 : Int)].length = c.len := by simp
      rw [hd]
      exact ⟨_, _, rfl, good_numpy _ _ _, e2, rfl, e3 0 (by omega)⟩
  have conv : c.isListNode = true → c.rank ≤ f + 1 → 2 ≤ n →
      ∃ p offs d, c.toListOffset = ok (listOffset p offs d) ∧ (listOffset p offs d).len = c.len ∧
      (∀ i, i < c.len → (listOffset p offs d).valD i = c.valD i) ∧ (listOffset p offs d).Good ∧
      ∃ o, sortNext a f 1 [0] (nats (fun _ => 0) c.len) 1 true (listOffset p offs d) = ok o ∧
        Boxed a (n - 1) c o ∧
        (0 < c.len → ∃ q x size zeros, o = regular {} (listOffset q offs x) size zeros ∧
          ¬ (q.arr = .string ∨ q.arr = .bytestring) ∧ ∀ y ∈ offs, 0 ≤ y ∧ y ≤ (x.len : Int)) := by
    intro hl' hr h2
    obtain ⟨e, e1, e2, e3, ⟨p, offs, x, rfl⟩, e5, e6, e7⟩ := nested_parts hn h hl'
    obtain ⟨n', rfl⟩ : ∃ n', n = n' + 1 := ⟨n - 1, by omega⟩
    simp only [rank] at e7
    obtain ⟨f', rfl⟩ : ∃ f', f = f' + 1 := ⟨f - 1, by omega⟩
    have hseg : (listOffset p offs x).seg 0 c.len = c.seg 0 c.len := seg_congr (N := c.len) (by omega) e5
    obtain ⟨o, o1, o2, o3⟩ := boxed_listOffset (a := a) (fuel := f') (parents := nats (fun _ => 0) c.len) e2 e6
      (by omega) (by rw [e3, hseg]; exact hs)
    refine ⟨p, offs, x, e1, e3, e5, e2, o, o1, ?_, by rw [e3] at o3; exact o3⟩
    unfold Boxed at o2 ⊢
    rw [e3, hseg] at o2
    exact o2
  cases hn with
  | numpy => exact leaf rfl
  | empty => exact leaf rfl
  | listOffset h1 h2 h3 h4 =>
    simp only [rank] at hf
    obtain ⟨o, o1, o2, _⟩ := boxed_listOffset (a := a) (fuel := f) h (.listOffset (o := false) h1 h2 h3 h4) (by omega) hs
    exact ⟨o, o1, o2⟩
  | listArray h1 h2 =>
    have hp := nested_pos h2
    obtain ⟨p, offs, x, e1, _, _, _, o, o1, o2, _⟩ := conv rfl hf (by omega)
    refine ⟨o, ?_, o2⟩
    simp only [sortNext]
    rw [e1, bind_ok, o1]
  | regular h1 h2 h3 =>
    rename_i n p d size zeros
    have hp := nested_pos h3
    by_cases h0 : (regular p d size zeros).len = 0
    · refine ⟨_, by simp only [sortNext]; rw [if_pos h0], fun _ => ?_, fun h => by omega⟩
      cases a.arg with
      | true => exact ⟨rfl, _, rfl, rfl⟩
      | false => exact ⟨h0, range_none (h.child (by simp [children]))⟩
    · obtain ⟨p', offs, x', e1, e2, e3, e4, o, o1, o2, o3⟩ := conv rfl hf (by omega)
      obtain ⟨q, x, size', zeros', rfl, hq, hoff⟩ := o3 (by omega)
      obtain ⟨y, z, g1, g2, g3, g4, g5⟩ := o2.2 (by omega)
      obtain ⟨rfl, rfl⟩ : y = listOffset q offs x ∧ size' = (regular p d size zeros).len := by
        injection g1 with _ a1 a2 a3
        exact ⟨a1.symm, a2⟩
      have hd := good_regular.mp h
      have hol : offs.length - 1 = (regular p d size zeros).len := e2
      have hlens : ∀ i, i < (listOffset q offs x).len → (listOffset q offs x).lens i = size := by
        intro i hi
        have hi' : i + 1 < offs.length := by simp only [len] at hi; omega
        have hi2 : i < (regular p d size zeros).len := by omega
        have hv := e3 i hi2
        rw [valD_listOffset e4 hi', valD_regular hd hi2] at hv
        have hv := congrArg (fun v => v.items.length) hv
        simp only [items_wrapList, seg_length] at hv
        unfold lens
        rw [valD_listOffset g2 hi', items_wrapList, seg_length, hv]
      obtain ⟨k1, _⟩ := toRegular_ok g2 rfl hoff
      obtain ⟨r, r1, r2, r3, r4, _, _, _, r5⟩ := k1 (fun i hi => by rw [hlens i hi, hlens 0 (by omega)])
      refine ⟨regular {} r (regular p d size zeros).len
          (regular {} (listOffset q offs x) (regular p d size zeros).len zeros').len, ?_, fun h => absurd h h0, fun _ => ⟨r, _, rfl, r2, by rw [r3, g3], by rw [r5]; rfl, ?_⟩⟩
      · simp only [sortNext]
        rw [if_neg h0, e1, bind_ok, o1, bind_ok]
        simp only [sortRegular]
        rw [r1, bind_ok]
      · rw [seg_congr (c' := listOffset q offs x) (N := (regular p d size zeros).len) (by omega)
          (fun i hi => r4 i (by omega))]
        exact g5

theorem nums_notNull {c : Content} {n : Nat} (h : c.Good) (hn : Nums dt n false c) (h2 : 2 ≤ n) {i : Nat}
    (hi : i < c.len) : c.valD i ≠ .null := by
  obtain ⟨e, _, e2, e3, ⟨p, offs, x, rfl⟩, e5, e6, _⟩ := nested_parts hn h (nested_list hn h2)
  rw [← e5 i hi]
  cases e6 with
  | listOffset hp _ _ _ =>
    rw [valD_listOffset e2 (by simp only [len] at e3; omega), wrapList_plain hp]
    simp

theorem mem_seg {c : Content} {s n : Nat} {v : Val} : v ∈ c.seg s n ↔ ∃ i, i < n ∧ v = c.valD (s + i) := by
  unfold seg
  simp only [List.mem_map, List.mem_range]
  constructor
  · rintro ⟨i, h, rfl⟩; exact ⟨i, h, rfl⟩
  · rintro ⟨i, h, rfl⟩; exact ⟨i, h, rfl⟩

/-- No list is missing. -/
theorem option_top_full {fuel : Nat} {p : Params} {index : List Int} {d c : Content} {n : Nat} {isoption : Bool}
    (hc : c = if isoption then indexedOption p index d else indexed p index d)
    (h : c.Good) (hn : Nums dt n true c) (hf : d.rank ≤ fuel) (h0 : 0 < c.len)
    (hnn : ∀ i, i < c.len → c.valD i ≠ .null) (hs : Spec.Sortable a.stable (n - 1) (c.seg 0 c.len)) :
    ∃ o, sortNext a (fuel + 1) 1 [0] (nats (fun _ => 0) c.len) 1 true c = ok o ∧ Finished a (n - 1) c o := by
  obtain ⟨next, n1, n2, n3, n4, n5, n6⟩ := sortOption_step (a := a) (f := fuel) (negaxis := 1) (starts := [0])
    (g := fun _ => 0) (outlength := 1) (keepdims := true) hc h hn h0
  have ho : c.isOptionOrIndexed = true := by rw [hc]; cases isoption <;> rfl
  obtain ⟨m', g1, g2, g3, g4, g5⟩ := kept_groups (next := next) (m := fun _ => c.len) (out := 1) h ho (sumTo_one _).symm n4 n5
  obtain ⟨k1, k2, k3⟩ := g5 hnn
  have hseg : next.seg 0 c.len = c.seg 0 c.len := seg_congr (N := c.len) (by omega) k3
  obtain ⟨o, o1, o2⟩ := boxed_plain (a := a) (fuel := fuel) n1 n2 (by omega) (by rw [k1, hseg]; exact hs)
  obtain ⟨x, zeros, rfl, o3, o4, _, o5⟩ := o2.2 (by omega)
  have hfin : ∀ w : Content, (w = indexedOption (if a.arg then {} else p) (outIndex (ob (comesFirst (fun _ => c.len) m' 1)) c.len)
        (regular {} x next.len zeros) ∨ w = indexed (if a.arg then {} else p) (outIndex (ob (comesFirst (fun _ => c.len) m' 1)) c.len)
        (regular {} x next.len zeros)) → Finished a (n - 1) c w := by
    intro w hw
    obtain ⟨r1, y, r2, r3⟩ := regular_one (p := {}) (zeros := zeros) o3 (show 0 < next.len by omega) o4
    have hi0 : rd (outIndex (ob (comesFirst (fun _ => c.len) m' 1)) c.len) ((0 : Nat) : Int) = ok 0 := by
      rw [rd_nat_ok (by simpa using h0), outIndex_getElem, ob_isSome]
      unfold comesFirst
      rw [blk_one, if_pos]
      · rfl
      · have := k2 0 (by omega)
        simp; omega
    have hlen : w.len = c.len := by rcases hw with rfl | rfl <;> simp [len]
    refine ⟨y, _, ?_, r3, by rw [k1, hseg] at o5; rw [k1]; exact o5⟩
    unfold finish
    rw [if_neg (by omega)]
    rcases hw with rfl | rfl
    · simp only [getitemAtNowrap]
      rw [hi0, bind_ok, r1]
      exact r2
    · simp only [getitemAtNowrap]
      rw [hi0, bind_ok, r1]
      exact r2
  have hlt : decide (next.len < c.len) = false := by simp; omega
  rw [hlt] at n6
  simp only [Bool.false_and, Bool.not_false, Bool.and_true] at n6
  refine ⟨if isoption then indexedOption (if a.arg then {} else p) (outIndex (ob (comesFirst (fun _ => c.len) m' 1)) c.len)
        (regular {} x next.len zeros) else indexed (if a.arg then {} else p) (outIndex (ob (comesFirst (fun _ => c.len) m' 1)) c.len)
        (regular {} x next.len zeros), ?_, hfin _ (by cases isoption <;> simp)⟩
  rw [n6, o1, bind_ok]
  have hprep := local_preparenext_ok (m := fun _ => c.len) (m' := m') (out := 1) (starts := [0])
    (tocarry := alloc c.len) g1 (by simp) (by rw [alloc_length, sumTo_one])
  rw [blk_one, blk_one, sumTo_one, ← g2] at hprep
  unfold sortOptionWrap
  rw [nats_length, hprep, bind_ok]
  dsimp only
  have hsim : ∀ (q : Params) idx, indexedSimplify isoption q idx (regular {} x next.len zeros)
      = ok (if isoption then indexedOption q idx (regular {} x next.len zeros) else indexed q idx (regular {} x next.len zeros)) := by
    intro q idx; rfl
  rw [hsim, bind_ok]
  by_cases hn1 : 1 = n
  · rw [if_pos (by simp [hn1])]
  · rw [if_neg (by simp; omega)]
    cases isoption <;> simp [regularToOffsets]

/-- Some lists are missing. -/
theorem option_top_missing {fuel : Nat} {p : Params} {index : List Int} {d c : Content} {n : Nat}
    (hc : c = indexedOption p index d) (h : c.Good) (hn : Nums dt n true c) (hf : d.rank ≤ fuel) (h0 : 0 < c.len)
    (h2 : 2 ≤ n) (hnn : cnt c.pickI c.len < c.len) (hs : Spec.SortableTop a.stable (n - 1) (c.seg 0 c.len)) :
    ∃ o, sortNext a (fuel + 1) 1 [0] (nats (fun _ => 0) c.len) 1 true c = ok o ∧ Finished a (n - 1) c o := by
  obtain ⟨next, n1, n2, n3, n4, n5, n6⟩ := sortOption_step (a := a) (f := fuel) (negaxis := 1) (starts := [0])
    (g := fun _ => 0) (outlength := 1) (keepdims := true) (isoption := true) hc h hn h0
  have ho : c.isOptionOrIndexed = true := by rw [hc]; rfl
  obtain ⟨m', g1, g2, g3, g4, g5⟩ := kept_groups (next := next) (m := fun _ => c.len) (out := 1) h ho (sumTo_one _).symm n4 n5
  have hm0 : m' 0 = next.len := by rw [g2]; simp [sumTo]
  obtain ⟨d', hd'⟩ : ∃ d', n - 1 = d' + 1 := ⟨n - 2, by omega⟩
  rw [hd'] at hs ⊢
  have hnl : next.isOptionOrIndexed = false := by cases n2 <;> rfl
  obtain ⟨o, o1, o2, o3, o4, o5⟩ := sort_ok (a := a) fuel next n false m' 1 [0] 1 n1 n2 (by omega) g2 (by simp) (by
    intro g hg
    obtain rfl : g = 0 := by omega
    rw [hd', hm0, sumTo_zero]
    intro v hv
    obtain ⟨j, hj, rfl⟩ := mem_seg.mp hv
    rw [Nat.zero_add] at *
    have hne := nums_notNull n1 n2 h2 hj
    refine ⟨hne, ?_⟩
    rw [n5 j hj] at hne ⊢
    obtain ⟨k1, _, _⟩ := kept_get (q := c.pickI) (n := c.len) (j := j) (by omega)
    exact hs _ (mem_seg.mpr ⟨_, k1, by rw [Nat.zero_add]⟩) hne)
  obtain ⟨w, w0, w1, w2, w3, w4⟩ := wrapped_ok (isoption := true) (p' := if a.arg then {} else p) (m := fun _ => c.len)
    (m' := m') (out := 1) o2 (by rw [o3, g2]) (o5 hnl).2.2 g1 (by simp)
  rw [sumTo_one] at w0 w1 w3
  have hwv : ∀ j, j < next.len → w.valD j = o.valD j := by
    intro j hj
    have := congrArg (fun l => l[j]?) (w4 0 (by omega))
    simp only [sumTo_zero, hm0] at this
    rw [seg_getElem?, if_pos (by omega), List.getElem?_append_left (by simpa using hj), seg_getElem?, if_pos hj] at this
    simpa using this
  -- the RegularArray of one element
  have hreg : (regular {} w c.len 0).Good := good_regular.mpr w2
  have hrl : (regular {} w c.len 0).len = 1 := (regular_one (p := {}) (zeros := 0) w2 h0 w3).1
  obtain ⟨offs, raw, e1, e2, e3⟩ := listParts_ok hreg rfl
  have hlen0 : (regular {} w c.len 0).lens 0 = c.len := by
    unfold lens; rw [valD_regular w2 (by omega), items_wrapList, seg_length]
  have hrawl : c.len ≤ raw.len := by
    have := e2.bound
    rw [hrl] at this
    simp only [sumTo, hlen0, Nat.zero_add] at this
    exact this
  have hrawv : ∀ j, j < c.len → raw.valD j = w.valD j := by
    have hv := e2.vals 0 (by omega)
    rw [valD_regular w2 (by omega), hlen0] at hv
    have hv := congrArg Val.items hv
    rw [items_wrapList, items_wrapList, Nat.zero_mul, sumTo_zero] at hv
    intro j hj
    have := congrArg (fun l => l[j]?) hv
    simp only [seg_getElem?, if_pos hj, Nat.zero_add, Option.some.injEq] at this
    exact this.symm
  have hcb : ∀ i, i < c.len → (c.pickI i).isSome = true → cnt c.pickI i < next.len := by
    intro i hi hs
    rw [n4]; exact (keptAt_cnt hi hs).1
  obtain ⟨y, y1, y2, y3, y4⟩ := indexedSimplify_good (p := if a.arg then {} else p) (index := outIndex c.pickI c.len)
    (c := raw) e2.good (by
      intro i hi
      rw [outIndex_getElem]
      split
      · rename_i hs
        have := hcb i (by simpa using hi) hs; omega
      · omega)
  rw [outIndex_length] at y3
  have hnull : ∀ i, i < c.len → c.pickI i = none → c.valD i = .null := by
    intro i hi hq
    have := (val_inner_pick h ho hi).1
    have hq' : c.pick i = none := by simpa [pickI] using hq
    rw [hq'] at this
    exact this
  have hyv : ∀ i, i < c.len → (c.valD i = .null ∧ y.valD i = .null) ∨
      (∃ j, j < next.len ∧ c.valD i = next.valD j ∧ y.valD i = o.valD j) := by
    intro i hi
    rw [y4 i (by simpa using hi), outIndex_getElem]
    cases hq : c.pickI i with
    | none => exact .inl ⟨hnull i hi hq, by simp⟩
    | some x =>
      have hs : (c.pickI i).isSome = true := by rw [hq]; rfl
      have hlt := hcb i hi hs
      refine .inr ⟨cnt c.pickI i, hlt, ?_, ?_⟩
      · rw [n5 _ hlt, (keptAt_cnt hi hs).2]
      · simp only [Option.isSome_some, if_true]
        rw [if_neg (by omega), Int.toNat_natCast, hrawv _ (by omega), hwv _ hlt]
  refine ⟨listOffset {} [0, (c.len : Int)] y, ?_, ?_⟩
  · have hdec : decide (next.len < c.len) = true := by simp; omega
    have hdec2 : decide (1 ≠ n) = true := by simp; omega
    rw [hdec, hdec2] at n6
    rw [blk_one] at g3
    simp only [Bool.and_true, Bool.not_true, Bool.and_false] at n6
    rw [n6]
    rw [blk_one] at o1
    rw [o1, bind_ok]
    have hprep := local_preparenext_ok (m := fun _ => c.len) (m' := m') (out := 1) (starts := [0])
      (tocarry := alloc c.len) g1 (by simp) (by rw [alloc_length, sumTo_one])
    rw [blk_one, blk_one, sumTo_one, ← g2] at hprep
    unfold sortOptionWrap
    rw [nats_length, hprep, bind_ok]
    dsimp only
    rw [w1, bind_ok, if_neg (by simp; omega)]
    simp only [if_true, regularToOffsets, toListOffset]
    rw [e1, bind_ok, bind_ok]
    simp only [outIndex_length]
    have hfix := fix_offsets_ok (m := fun _ => c.len) (out := 1)
    simp only [List.range_one, List.map_cons, sumTo_zero, List.map_nil, sumTo_one, Nat.cast_zero] at hfix
    rw [if_neg (by simp)]
    simp only [List.length_cons, List.length_nil, Nat.zero_add]
    push_cast at hfix ⊢
    rw [hfix, bind_ok, y1, bind_ok]
    simp [offsTo, List.range_succ, sumTo, Content.params]
  · obtain ⟨r, r1, r2⟩ := range_whole y2 (n := c.len) (by omega)
    refine ⟨r, _, ?_, r2, ?_⟩
    · unfold finish
      rw [if_neg (by simp [len])]
      simp only [getitemAtNowrap]
      have a1 : rd [(0 : Int), (c.len : Int)] ((0 : Nat) : Int) = ok 0 := rfl
      have a2 : rd [(0 : Int), (c.len : Int)] ((0 + 1 : Nat) : Int) = ok (c.len : Int) := rfl
      rw [a1, bind_ok, a2, bind_ok]
      unfold checkStartStop
      rw [if_neg (show ¬ (0 : Int) = (c.len : Int) by omega)]
      dsimp only
      rw [if_neg (by omega), if_neg (by omega), if_neg (by omega), bind_ok]
      simp only [r1, bind_ok]
    · refine List.forall₂_iff_get.mpr ⟨by simp, ?_⟩
      intro i i1 i2
      have hi : i < c.len := by simpa using i1
      rw [List.get_eq_getElem, List.get_eq_getElem, seg_getElem, seg_getElem, Nat.zero_add]
      rcases hyv i hi with hh | ⟨j, j1, j2, j3⟩
      · exact .inl hh
      · have hrel := o4 0 (by omega)
        rw [hd', hm0, sumTo_zero] at hrel
        have hrel := (List.forall₂_iff_get.mp hrel).2 j (by simpa using j1) (by simpa using j1)
        rw [List.get_eq_getElem, List.get_eq_getElem, seg_getElem, seg_getElem, Nat.zero_add] at hrel
        rw [j2, j3]
        exact hrel

theorem SortableTop_full {c : Content} {d : Nat} {stable : Bool} (hs : Spec.SortableTop stable d (c.seg 0 c.len))
    (hnn : ∀ i, i < c.len → c.valD i ≠ .null) : Spec.Sortable stable d (c.seg 0 c.len) := by
  cases d with
  | zero => exact hs.2
  | succ d =>
    intro v hv
    obtain ⟨i, hi, rfl⟩ := mem_seg.mp hv
    rw [Nat.zero_add] at hv ⊢
    exact ⟨hnn i hi, hs _ hv (hnn i hi)⟩

theorem option_top {fuel : Nat} {p : Params} {index : List Int} {d c : Content} {n : Nat} {isoption : Bool}
    (hc : c = if isoption then indexedOption p index d else indexed p index d)
    (h : c.Good) (hn : Nums dt n true c) (hf : d.rank ≤ fuel)
    (hs : Spec.SortableTop a.stable (n - 1) (c.seg 0 c.len)) :
    ∃ o, sortNext a (fuel + 1) 1 [0] (nats (fun _ => 0) c.len) 1 true c = ok o ∧ Finished a (n - 1) c o := by
  have ho : c.isOptionOrIndexed = true := by rw [hc]; cases isoption <;> rfl
  have hlen : c.len = index.length := by rw [hc]; cases isoption <;> rfl
  by_cases h0 : c.len = 0
  · refine ⟨if a.arg then numpy {} .int64 [] else c, ?_, ?_⟩
    · rw [hc]
      rw [hlen] at h0
      cases isoption <;> simp only [if_true, Bool.false_eq_true, if_false, sortNext] <;> rw [if_pos h0]
    · refine nothing_finished h h0 (.inr ⟨p, index, d, ?_⟩)
      rw [hc]; cases isoption <;> simp
  · by_cases hall : cnt c.pickI c.len < c.len
    · have hiso : isoption = true := by
        cases hiso : isoption with
        | true => rfl
        | false =>
          rw [hiso] at hc
          simp only [Bool.false_eq_true, if_false] at hc
          rw [hc] at h hall
          rw [indexed_kept h] at hall
          omega
      rw [hiso] at hc
      have h2 : 2 ≤ n := by
        have hp := nested_pos hn
        by_contra hc2
        obtain rfl : n = 1 := by omega
        have hex : ∃ i, i < c.len ∧ c.pickI i = none := by
          by_contra hcon
          have := (keptAt_all (q := c.pickI) (n := c.len) (by
            intro i hi
            cases hq : c.pickI i with
            | none => exact absurd ⟨i, hi, hq⟩ hcon
            | some x => rfl)).1
          omega
        obtain ⟨i, hi, hq⟩ := hex
        have hv := (val_inner_pick h ho hi).1
        have hq' : c.pick i = none := by simpa [pickI] using hq
        rw [hq'] at hv
        exact hs.1 _ (mem_seg.mpr ⟨i, hi, by rw [Nat.zero_add]⟩) hv
      exact option_top_missing hc h hn hf (by omega) h2 hall hs
    · have hnn : ∀ i, i < c.len → c.valD i ≠ .null := by
        have hle := cnt_le c.pickI c.len
        have hsome : ∀ i, i < c.len → (c.pickI i).isSome = true := by
          intro i hi
          by_contra hcon
          have h1 : cnt c.pickI (i + 1) = cnt c.pickI i := by
            rw [cnt_succ]; simp [hcon]
          have h2 := cnt_le c.pickI i
          have h3 : ∀ t, cnt c.pickI (i + 1 + t) ≤ cnt c.pickI (i + 1) + t := by
            intro t
            induction t with
            | zero => simp
            | succ t ih => rw [← Nat.add_assoc, cnt_succ]; split <;> omega
          have := h3 (c.len - (i + 1))
          rw [show i + 1 + (c.len - (i + 1)) = c.len by omega] at this
          omega
        intro i hi hnull
        rcases Nat.lt_or_ge n 2 with hn2 | hn2
        · have hp := nested_pos hn
          obtain rfl : n = 1 := by omega
          exact hs.1 _ (mem_seg.mpr ⟨i, hi, by rw [Nat.zero_add]⟩) hnull
        · have hinner : Nums dt n false c.inner := by
            rw [hc] at hn ⊢
            cases isoption <;> cases hn <;> assumption
          have hv := (val_inner_pick h ho hi)
          obtain ⟨x, hx⟩ := Option.isSome_iff_exists.mp (hsome i hi)
          have hx' : (c.pick i).map (fun (k : Nat) => (k : Int)) = some x := hx
          rw [Option.map_eq_some_iff] at hx'
          obtain ⟨y, hy, rfl⟩ := hx'
          have hb := hv.2 y hy
          have hv := hv.1
          rw [hy] at hv
          rw [hv] at hnull
          exact nums_notNull (inner_good h) hinner hn2 hb hnull
      exact option_top_full hc h hn hf (by omega) hnn (SortableTop_full hs hnn)

theorem finished_congr {c c' o : Content} {d : Nat} (hl : c'.len = c.len) (hv : ∀ i, i < c.len → c'.valD i = c.valD i)
    (h : Finished a d c' o) : Finished a d c o := by
  unfold Finished at h ⊢
  rw [hl, seg_congr (N := c.len) (by omega) hv] at h
  exact h

theorem sortNext_top {fuel : Nat} {c : Content} {n : Nat} {b : Bool} (h : c.Good) (hn : Nums dt n b c)
    (hf : c.rank + 1 ≤ fuel) (hs : Spec.SortableTop a.stable (n - 1) (c.seg 0 c.len)) :
    ∃ o, sortNext a fuel 1 [0] (nats (fun _ => 0) c.len) 1 true c = ok o ∧ Finished a (n - 1) c o := by
  have plain : Nums dt n false c → ∃ o, sortNext a fuel 1 [0] (nats (fun _ => 0) c.len) 1 true c = ok o ∧ Finished a (n - 1) c o := by
    intro hn
    obtain ⟨o, o1, o2⟩ := boxed_plain (a := a) (fuel := fuel) h hn (by omega) (by
      by_cases hn1 : n = 1
      · subst hn1; exact hs.2
      · exact SortableTop_full hs (fun i hi => nums_notNull h hn (by have := nested_pos hn; omega) hi))
    exact ⟨o, o1, o2.finished⟩
  cases hn with
  | numpy h1 h2 => exact plain (.numpy h1 h2)
  | empty h1 h2 => exact plain (.empty h1 h2)
  | listOffset h1 h2 h3 h4 => exact plain (.listOffset h1 h2 h3 h4)
  | listArray h1 h2 => exact plain (.listArray h1 h2)
  | regular h1 h2 h3 => exact plain (.regular h1 h2 h3)
  | indexed h1 h2 h3 =>
    obtain ⟨f, rfl⟩ : ∃ f, fuel = f + 1 := ⟨fuel - 1, by omega⟩
    simp only [rank] at hf
    exact option_top (isoption := false) rfl h (.indexed h1 h2 h3) (by omega) hs
  | indexedOption h1 h2 =>
    obtain ⟨f, rfl⟩ : ∃ f, fuel = f + 1 := ⟨fuel - 1, by omega⟩
    simp only [rank] at hf
    exact option_top (isoption := true) rfl h (.indexedOption h1 h2) (by omega) hs
  | byteMasked h1 h2 =>
    rename_i p mask vw d
    simp only [rank] at hf
    obtain ⟨f, rfl⟩ : ∃ f, fuel = f + 1 + 1 := ⟨fuel - 2, by omega⟩
    obtain ⟨index, e1, e2, e3, e4⟩ := toIndexedOption_byte h
    have hl : (indexedOption p index d).len = (byteMasked p mask vw d).len := e3
    obtain ⟨o, o1, o2⟩ := option_top (a := a) (fuel := f) (isoption := true) rfl e2 (.indexedOption h1 h2) (by omega) (by
      simp only [if_true]
      rw [hl, seg_congr (c' := byteMasked p mask vw d) (N := (byteMasked p mask vw d).len) (by omega) e4]
      exact hs)
    simp only [if_true] at o1 o2
    refine ⟨o, ?_, finished_congr hl e4 o2⟩
    rw [sortNext]
    rw [e1, bind_ok, ← hl]; exact o1
  | bitMasked h1 h2 =>
    rename_i p mk vw length lsb d
    simp only [rank] at hf
    obtain ⟨f, rfl⟩ : ∃ f, fuel = f + 1 + 1 + 1 := ⟨fuel - 3, by omega⟩
    obtain ⟨bm, b1, b2, b3, b4⟩ := toByteMasked_bit h
    obtain ⟨index, e1, e2, e3, e4⟩ := toIndexedOption_byte b3
    have hl : (indexedOption p index d).len = (bitMasked p mk vw length lsb d).len := by
      show index.length = length
      omega
    have hv : ∀ i, i < (bitMasked p mk vw length lsb d).len → (indexedOption p index d).valD i
        = (bitMasked p mk vw length lsb d).valD i := by
      intro i hi
      have hi : i < length := hi
      rw [e4 i (by omega), b4 i hi]
    obtain ⟨o, o1, o2⟩ := option_top (a := a) (fuel := f) (isoption := true) rfl e2 (.indexedOption h1 h2) (by omega) (by
      simp only [if_true]
      rw [hl, seg_congr (N := (bitMasked p mk vw length lsb d).len) (by omega) hv]
      exact hs)
    simp only [if_true] at o1 o2
    refine ⟨o, ?_, finished_congr hl hv o2⟩
    rw [sortNext]
    rw [b1, bind_ok, sortNext]
    rw [e1, bind_ok, ← hl]; exact o1
  | unmasked h1 =>
    rename_i p d
    simp only [rank] at hf
    obtain ⟨f, rfl⟩ : ∃ f, fuel = f + 1 := ⟨fuel - 1, by omega⟩
    have hd : d.Good := h.child (by simp [children])
    by_cases h0 : (unmasked p d).len = 0
    · exact ⟨_, by simp only [sortNext]; rw [if_pos h0], nothing_finished h h0 (.inl ⟨p, d, .inr rfl⟩)⟩
    · have hlen : (unmasked p d).len = d.len := rfl
      have hv : ∀ i, i < d.len → (unmasked p d).valD i = d.valD i := fun _ _ => rfl
      have hseg : (unmasked p d).seg 0 d.len = d.seg 0 d.len := rfl
      rw [hlen, hseg] at hs
      obtain ⟨o, o1, o2⟩ := boxed_plain (a := a) (fuel := f) hd h1 (by omega) (by
        by_cases hn1 : n = 1
        · subst hn1; exact hs.2
        · exact SortableTop_full hs (fun i hi => nums_notNull hd h1 (by have := nested_pos h1; omega) hi))
      obtain ⟨x, zeros, rfl, g2, g3, g4, g5⟩ := o2.2 (by omega)
      refine ⟨regular {} (unmasked p x) d.len (unmasked p d).len, ?_, ?_⟩
      · simp only [sortNext]
        rw [if_neg h0, hlen, o1, bind_ok]
        simp only [simplifyOption, g4, Bool.false_eq_true, if_false, bind_ok]
      · have hg : (unmasked p x).Good := good_unmasked.mpr g2
        obtain ⟨k1, y, k2, k3⟩ := regular_one (p := {}) (zeros := (unmasked p d).len) hg (show 0 < d.len by omega) g3
        refine ⟨y, _, ?_, k3, g5⟩
        unfold finish; rw [if_neg (by omega), k2]

/-- `Content::sort` and `Content::argsort` at the innermost dimension. -/
theorem sortTop_ok {c : Content} {n : Nat} {b : Bool} (h : c.Good) (hn : Nums dt n b c) {axis : Int}
    (ha : axis = -1 ∨ axis = (n : Int) - 1) (hs : Spec.SortableTop a.stable (n - 1) (c.seg 0 c.len)) :
    ∃ x ys, c.sortTop a axis = ok (.array x) ∧ x.toList = ok ys ∧
      Spec.AtDepth (LeafRel a) (n - 1) (c.seg 0 c.len) ys := by
  have hp := nested_pos hn
  have hneg : negativeAxis axis c.branchDepth = ok 1 := by
    rw [nested_branchDepth hn]
    unfold negativeAxis
    simp only [Bool.false_eq_true, if_false]
    rcases ha with rfl | rfl
    · rw [if_neg (show ¬ (- -(1 : Int) ≤ 0) by omega), if_pos (by omega)]; rfl
    · rw [if_pos (show -((n : Int) - 1) ≤ 0 by omega), if_pos (by omega)]
      congr 1; omega
  obtain ⟨o, o1, x, ys, o2, o3, o4⟩ := sortNext_top (a := a) (fuel := c.rank + 1) h hn (by omega) hs
  refine ⟨x, ys, ?_, o3, o4⟩
  unfold sortTop
  rw [hneg, bind_ok, zeroparents_ok (alloc_length _), bind_ok, o1, bind_ok]
  exact o2

end Content
end Awk
