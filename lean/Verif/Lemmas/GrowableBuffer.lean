import Verif.Spec.GrowableBuffer
import Mathlib.Data.List.Nodup
import Mathlib.Tactic.Linarith
import Mathlib.Tactic.Positivity
/-
Growing buffers hold what was appended, and the memory of snapshots is not written to.
-/

namespace Awk
open R Heap

variable {α : Type}

/-- The block has `n` cells, and these begin with the items. -/
def Holds (h : Heap α) (block n : Nat) (xs : List α) : Prop :=
  ∃ cells : Block α, h[block]? = some cells ∧ cells.length = n ∧ xs.length ≤ n ∧
    ∀ i (_ : i < xs.length), cells[i]? = some (some xs[i])

/-- Blocks are kept, and all that is written is in one of them, from `off` on. -/
def Ext (h h' : Heap α) (block off : Nat) : Prop :=
  h.length ≤ h'.length ∧ ∀ (k : Nat) (cells : Block α), h[k]? = some cells → ∃ cells' : Block α,
    h'[k]? = some cells' ∧ cells'.length = cells.length ∧ (k ≠ block → cells' = cells) ∧
    ∀ i < off, cells'[i]? = cells[i]?

theorem Ext.refl (h : Heap α) (block off : Nat) : Ext h h block off :=
  ⟨Nat.le_refl _, fun k cells hk => ⟨cells, hk, rfl, fun _ => rfl, fun _ _ => rfl⟩⟩

theorem Ext.trans {h h' h'' : Heap α} {block off off' : Nat} (h1 : Ext h h' block off)
    (h2 : Ext h' h'' block off') (hoff : off ≤ off') : Ext h h'' block off := by
  refine ⟨Nat.le_trans h1.1 h2.1, fun k cells hk => ?_⟩
  obtain ⟨c1, a1, a2, a3, a4⟩ := h1.2 k cells hk
  obtain ⟨c2, b1, b2, b3, b4⟩ := h2.2 k c1 a1
  exact ⟨c2, b1, b2.trans a2, fun hn => (b3 hn).trans (a3 hn),
    fun i hi => (b4 i (by omega)).trans (a4 i hi)⟩

theorem Ext.mono {h h' : Heap α} {block off off' : Nat} (h1 : Ext h h' block off)
    (hoff : off' ≤ off) : Ext h h' block off' :=
  ⟨h1.1, fun k cells hk => by
    obtain ⟨c1, a1, a2, a3, a4⟩ := h1.2 k cells hk
    exact ⟨c1, a1, a2, a3, fun i hi => a4 i (by omega)⟩⟩

theorem Holds.lt {h : Heap α} {block n : Nat} {xs : List α} (hb : Holds h block n xs) :
    block < h.length := by
  obtain ⟨cells, h1, _⟩ := hb
  exact (List.getElem?_eq_some_iff.mp h1).1

theorem Holds.load {h : Heap α} {block n : Nat} {xs : List α} (hb : Holds h block n xs) {i : Nat}
    (hi : i < xs.length) : load h block i = ok xs[i] := by
  obtain ⟨cells, h1, h2, _, h3⟩ := hb
  simp only [Heap.load]
  rw [rd_eq_ok.mpr ⟨by omega, by simpa using h1⟩, bind_ok,
    rd_eq_ok.mpr ⟨by omega, by simpa using h3 i hi⟩]
  rfl

theorem Holds.view {h : Heap α} {block n : Nat} {xs : List α} (hb : Holds h block n xs) :
    view h block xs.length = ok xs := by
  simp only [Heap.view, Int.toNat_natCast]
  rw [mapN_eq_ok]
  exact ⟨rfl, fun i hi => hb.load hi⟩

theorem Holds.ext {h h' : Heap α} {k n block off : Nat} {xs : List α} (hb : Holds h k n xs)
    (he : Ext h h' block off) (hoff : k = block → xs.length ≤ off) : Holds h' k n xs := by
  obtain ⟨cells, h1, h2, h3, h4⟩ := hb
  obtain ⟨c1, a1, a2, a3, a4⟩ := he.2 k cells h1
  refine ⟨c1, a1, a2.trans h2, h3, fun i hi => ?_⟩
  by_cases hk : k = block
  · rw [a4 i (by have := hoff hk; omega)]; exact h4 i hi
  · rw [a3 hk]; exact h4 i hi

theorem malloc_ok (h : Heap α) {n : Int} (hn : 0 ≤ n) : ∃ h', malloc h n = ok (h', h.length) ∧
    Holds h' h.length n.toNat [] ∧ (∀ block off, Ext h h' block off) ∧ h'.length = h.length + 1 := by
  refine ⟨h ++ [List.replicate n.toNat none], ?_, ?_, ?_, by simp⟩
  · simp only [malloc]; rw [if_neg (by omega)]
  · exact ⟨List.replicate n.toNat none, by simp, by simp, by simp, by simp⟩
  · intro block off
    refine ⟨by simp, fun k cells hk => ⟨cells, ?_, rfl, fun _ => rfl, fun _ _ => rfl⟩⟩
    rw [List.getElem?_append_left (List.getElem?_eq_some_iff.mp hk).1]; exact hk

theorem store_ok {h : Heap α} {block n : Nat} {xs : List α} (hb : Holds h block n xs)
    (hn : xs.length < n) (x : α) : ∃ h', store h block xs.length x = ok h' ∧
    Holds h' block n (xs ++ [x]) ∧ Ext h h' block xs.length := by
  have hlt := hb.lt
  obtain ⟨cells, h1, h2, h3, h4⟩ := hb
  refine ⟨h.set block (cells.set xs.length (some x)), ?_, ?_, ?_⟩
  · simp only [store]
    rw [rd_eq_ok.mpr ⟨by omega, by simpa using h1⟩, bind_ok, wr_nat_ok (by omega)]
    rfl
  · refine ⟨cells.set xs.length (some x), by rw [List.getElem?_set_self hlt], by simpa using h2,
      by simp; omega, fun i hi => ?_⟩
    simp only [List.length_append, List.length_singleton] at hi
    by_cases he : i = xs.length
    · subst he; rw [List.getElem?_set_self (by omega)]; simp
    · rw [List.getElem?_set_ne (by omega), h4 i (by omega), List.getElem_append_left (by omega)]
  · refine ⟨by simp, fun k cs hk => ?_⟩
    by_cases he : k = block
    · subst he
      rw [h1] at hk; cases hk
      exact ⟨_, by rw [List.getElem?_set_self hlt], by simp, fun hc => absurd rfl hc,
        fun i hi => by rw [List.getElem?_set_ne (by omega)]⟩
    · exact ⟨cs, by rw [List.getElem?_set_ne (by omega)]; exact hk, rfl, fun _ => rfl, fun _ _ => rfl⟩

theorem copy_ok {h : Heap α} {src dst n m : Nat} {xs : List α} (hs : Holds h src n xs)
    (hd : Holds h dst m []) (hm : xs.length ≤ m) : ∃ h', copy h dst src xs.length = ok h' ∧
    Holds h' dst m xs ∧ Ext h h' dst 0 := by
  have hlt := hd.lt
  obtain ⟨cs, h1, h2, h3, h4⟩ := hs
  obtain ⟨cd, g1, g2, _, _⟩ := hd
  refine ⟨h.set dst (cs.take xs.length ++ cd.drop xs.length), ?_, ?_, ?_⟩
  · simp only [copy]
    rw [rd_eq_ok.mpr ⟨by omega, by simpa using h1⟩, bind_ok,
      rd_eq_ok.mpr ⟨by omega, by simpa using g1⟩, bind_ok, if_neg (by omega)]
    simp
  · refine ⟨_, by rw [List.getElem?_set_self hlt], by simp; omega, hm, fun i hi => ?_⟩
    rw [List.getElem?_append_left (by simp; omega), List.getElem?_take_of_lt hi]
    exact h4 i hi
  · refine ⟨by simp, fun k cs' hk => ?_⟩
    by_cases he : k = dst
    · subst he
      rw [g1] at hk; cases hk
      exact ⟨_, by rw [List.getElem?_set_self hlt], by simp; omega, fun hc => absurd rfl hc,
        fun i hi => by omega⟩
    · exact ⟨cs', by rw [List.getElem?_set_ne (by omega)]; exact hk, rfl, fun _ => rfl, fun _ _ => rfl⟩

/-- The buffer holds the items. -/
structure BHolds (h : Heap α) (b : Buf) (xs : List α) : Prop where
  holds : Holds h b.block b.reserved.toNat xs
  length : b.length = xs.length
  pos : 1 ≤ b.reserved

/-- The buffer is in a new block. -/
def Fresh (h h' : Heap α) (b : Buf) : Prop :=
  b.block = h.length ∧ h.length < h'.length ∧ Ext h h' h.length 0

/-- The buffer has appended to its block, or is in a new one. -/
def Moved (h h' : Heap α) (b b' : Buf) (off : Nat) : Prop :=
  b'.block = b.block ∧ Ext h h' b.block off ∧ off ≤ b'.length.toNat ∨ Fresh h h' b'

variable {o : BufOptions}

theorem empty_ok (hinit : 1 ≤ o.initial) (m : Int) (h : Heap α) : ∃ h' b,
    Buf.empty o m h = ok (h', b) ∧ BHolds h' b [] ∧ Fresh h h' b ∧ m ≤ b.reserved := by
  obtain ⟨h', h1, h2, h3, h4⟩ := malloc_ok h
    (n := if o.initial < m then m else o.initial) (by split <;> omega)
  refine ⟨h', _, by simp only [Buf.empty]; rw [h1]; rfl, ⟨h2, rfl, ?_⟩, ⟨rfl, by omega, h3 _ _⟩, ?_⟩
  · show (1 : Int) ≤ if _ then _ else _
    split <;> omega
  · show m ≤ if _ then _ else _
    split <;> omega

theorem fill_ok {h : Heap α} {block n : Nat} {f : Nat → Heap α → R α} {xs : List α}
    (hb : Holds h block n []) (hn : xs.length ≤ n)
    (hf : ∀ i (_ : i < xs.length) h', Ext h h' block 0 → f i h' = ok xs[i]) :
    ∃ h', forN xs.length (fun i h => f i h >>= fun x => store h block i x) h = ok h' ∧
      Holds h' block n xs ∧ Ext h h' block 0 := by
  obtain ⟨h', h1, h2, h3⟩ := forN_inv (n := xs.length)
    (body := fun i h => f i h >>= fun x => store h block i x) (s := h)
    (fun i h' => Holds h' block n (xs.take i) ∧ Ext h h' block 0)
    ⟨by simpa using hb, .refl _ _ _⟩ (by
      rintro i hi h' ⟨g1, g2⟩
      have hlen : (xs.take i).length = i := by simp; omega
      obtain ⟨h'', k1, k2, k3⟩ := store_ok g1 (by omega) xs[i]
      rw [hlen] at k1
      refine ⟨h'', by simp only [hf i hi h' g2, bind_ok, k1], ?_, g2.trans (k3.mono (by omega)) (Nat.le_refl _)⟩
      rw [List.take_append_getElem hi] at k2
      exact k2)
  exact ⟨h', h1, by simpa using h2, h3⟩

theorem full_ok (hinit : 1 ≤ o.initial) (x : α) (n : Nat) (h : Heap α) : ∃ h' b,
    Buf.full o x n h = ok (h', b) ∧ BHolds h' b (List.replicate n x) ∧ Fresh h h' b := by
  obtain ⟨h1, b, e1, e2, e3, e4⟩ := empty_ok hinit (n : Int) h
  have hp := e2.pos
  obtain ⟨h2, g1, g2, g3⟩ := fill_ok (f := fun _ _ => ok x) (xs := List.replicate n x) e2.holds
    (by simp; omega) (by simp)
  rw [List.length_replicate] at g1
  refine ⟨h2, ⟨b.block, n, b.reserved⟩, ?_, ⟨g2, by simp, hp⟩, e3.1, ?_, ?_⟩
  · simp only [Buf.full]
    rw [e1, bind_ok]
    simp only [bind_ok] at g1
    simp only [g1, bind_ok]
  · have := g3.1; have := e3.2.1; omega
  · refine e3.2.2.trans ?_ (Nat.le_refl _)
    rw [e3.1] at g3; exact g3

theorem clear_ok (hinit : 1 ≤ o.initial) (h : Heap α) : ∃ h' b,
    Buf.clear o h = ok (h', b) ∧ BHolds h' b [] ∧ Fresh h h' b := by
  obtain ⟨h', h1, h2, h3, h4⟩ := malloc_ok h (n := o.initial) (by omega)
  exact ⟨h', _, by simp only [Buf.clear]; rw [h1]; rfl, ⟨h2, rfl, hinit⟩, rfl, by omega, h3 _ _⟩

theorem grow_lt (hres : 1 < o.resize) {r : Int} (hr : 1 ≤ r) : r < ⌈(r : Rat) * o.resize⌉ := by
  rw [Int.lt_ceil]
  have : (0 : Rat) < r := by exact_mod_cast hr
  nlinarith

theorem append_ok (hres : 1 < o.resize) {h : Heap α} {b : Buf} {xs : List α} (hb : BHolds h b xs)
    (x : α) : ∃ h' b', Buf.append o b x h = ok (h', b') ∧ BHolds h' b' (xs ++ [x]) ∧
      Moved h h' b b' xs.length := by
  obtain ⟨k1, k2, k3⟩ := hb
  have hle : xs.length ≤ b.reserved.toNat := by obtain ⟨_, _, _, h, _⟩ := k1; exact h
  by_cases hfull : b.length = b.reserved
  · have hg := grow_lt hres k3
    obtain ⟨h1, m1, m2, m3, m4⟩ := malloc_ok h (n := ⌈(b.reserved : Rat) * o.resize⌉) (by omega)
    have hs := k1.ext (m3 b.block xs.length) (fun _ => Nat.le_refl _)
    obtain ⟨h2, c1, c2, c3⟩ := copy_ok hs m2 (by omega)
    obtain ⟨h3, s1, s2, s3⟩ := store_ok c2 (by omega) x
    refine ⟨h3, ⟨h.length, b.length + 1, ⌈(b.reserved : Rat) * o.resize⌉⟩, ?_,
      ⟨s2, by simp; omega, by show 1 ≤ ⌈(b.reserved : Rat) * o.resize⌉; omega⟩, .inr ⟨rfl, ?_, ?_⟩⟩
    · simp only [Buf.append, if_pos hfull, Buf.setReserved]
      rw [if_pos hg, m1]
      simp only [bind_ok, k2, c1, s1]
    · have := c3.1; have := s3.1; omega
    · exact ((m3 h.length 0).trans c3 (Nat.le_refl _)).trans s3 (by omega)
  · obtain ⟨h1, s1, s2, s3⟩ := store_ok k1 (by omega) x
    refine ⟨h1, ⟨b.block, b.length + 1, b.reserved⟩, ?_, ⟨s2, by simp; omega, k3⟩,
      .inl ⟨rfl, s3, by simp; omega⟩⟩
    simp only [Buf.append, if_neg hfull, bind_ok]
    simp only [k2, s1, bind_ok]

theorem convert_ok (hinit : 1 ≤ o.initial) {h : Heap α} {b : Buf} {xs : List α}
    (hb : BHolds h b xs) (f : α → α) : ∃ h' b', Buf.convert o f b h = ok (h', b') ∧
      BHolds h' b' (xs.map f) ∧ Fresh h h' b' := by
  obtain ⟨k1, k2, k3⟩ := hb
  have hle : xs.length ≤ b.reserved.toNat := by obtain ⟨_, _, _, h, _⟩ := k1; exact h
  obtain ⟨h1, b', e1, e2, e3, e4⟩ := empty_ok hinit b.reserved h
  have hlt := k1.lt
  obtain ⟨h2, g1, g2, g3⟩ := fill_ok
    (f := fun i h => Heap.load h b.block i >>= fun x => ok (f x)) (xs := xs.map f) e2.holds
    (by simp; omega) (by
      intro i hi h' he
      have hi' : i < xs.length := by simpa using hi
      have hh : Holds h' b.block b.reserved.toNat xs :=
        (k1.ext e3.2.2 (fun hc => by omega)).ext he (fun hc => by rw [e3.1] at hc; omega)
      simp only [hh.load hi', bind_ok, List.getElem_map])
  rw [List.length_map] at g1
  have hp := e2.pos
  refine ⟨h2, ⟨b'.block, b.length, b'.reserved⟩, ?_, ⟨g2, by simpa using k2, hp⟩, e3.1, ?_, ?_⟩
  · simp only [Buf.convert]
    rw [e1]
    simp only [bind_ok, R.bind_assoc] at g1
    simp only [bind_ok, k2, Int.toNat_natCast, g1, Buf.setLength]
    rw [if_neg (by omega)]
    rfl
  · have := g3.1; have := e3.2.1; omega
  · refine e3.2.2.trans ?_ (Nat.le_refl _)
    rw [e3.1] at g3; exact g3

/-- The buffers hold the sequences of items, each in its own block. -/
structure SInv (s : BufState α) (xss : List (List α)) : Prop where
  length : s.bufs.length = xss.length
  holds : ∀ (i : Nat) b xs, s.bufs[i]? = some b → xss[i]? = some xs → BHolds s.heap b xs
  distinct : ∀ (i j : Nat) b c, s.bufs[i]? = some b → s.bufs[j]? = some c → b.block = c.block → i = j

/-- A snapshot sees these items, which no buffer is going to write to. -/
def Safe (s : BufState α) (block : Nat) (ys : List α) : Prop :=
  (∃ n, Holds s.heap block n ys) ∧
  ∀ (i : Nat) b, s.bufs[i]? = some b → b.block = block → (ys.length : Int) ≤ b.length

theorem replace_ok {s : BufState α} {xss : List (List α)} (hi : SInv s xss) {i : Nat} {b b' : Buf}
    {h' : Heap α} {xs xs' : List α} (hb : s.bufs[i]? = some b) (hxs : xss[i]? = some xs)
    (hb' : BHolds h' b' xs') (hm : Moved s.heap h' b b' xs.length) :
    SInv ⟨h', s.bufs.set i b'⟩ (xss.set i xs') ∧
    ∀ block ys, Safe s block ys → Safe ⟨h', s.bufs.set i b'⟩ block ys := by
  have hlt := (List.getElem?_eq_some_iff.mp hb).1
  have hlt' := (List.getElem?_eq_some_iff.mp hxs).1
  have hget : ∀ {j : Nat} {c : Buf}, (s.bufs.set i b')[j]? = some c →
      j = i ∧ c = b' ∨ j ≠ i ∧ s.bufs[j]? = some c := by
    intro j c hc
    by_cases hj : j = i
    · subst hj; rw [List.getElem?_set_self hlt] at hc; exact .inl ⟨rfl, by cases hc; rfl⟩
    · rw [List.getElem?_set_ne (by omega)] at hc; exact .inr ⟨hj, hc⟩
  have hget' : ∀ {j : Nat} {c : Buf}, s.bufs[j]? = some c → ∃ ys, xss[j]? = some ys ∧
      BHolds s.heap c ys := by
    intro j c hc
    have := (List.getElem?_eq_some_iff.mp hc).1
    refine ⟨xss[j]'(by rw [← hi.length]; exact this), List.getElem?_eq_getElem _,
      hi.holds j c _ hc (List.getElem?_eq_getElem _)⟩
  have hbl := hi.holds i b xs hb hxs
  -- buffers other than the `i`-th one have other blocks
  have hother : ∀ {j : Nat} {c : Buf}, j ≠ i → s.bufs[j]? = some c → c.block ≠ b'.block := by
    intro j c hj hc he
    rcases hm with ⟨h1, _, _⟩ | ⟨h1, _, _⟩
    · rw [h1] at he; exact hj (hi.distinct j i c b hc hb he)
    · obtain ⟨ys, _, hys⟩ := hget' hc
      have := hys.holds.lt
      omega
  have hkeep : ∀ {k n : Nat} {ys : List α}, Holds s.heap k n ys → (k = b.block → ys.length ≤ xs.length) →
      Holds h' k n ys := by
    intro k n ys hh hk
    rcases hm with ⟨_, h2, _⟩ | ⟨_, _, h2⟩
    · exact hh.ext h2 hk
    · exact hh.ext h2 (fun hc => by have := hh.lt; omega)
  refine ⟨⟨by simpa using hi.length, ?_, ?_⟩, ?_⟩
  · intro j c ys hc hys
    rcases hget hc with ⟨rfl, rfl⟩ | ⟨hj, hc'⟩
    · rw [List.getElem?_set_self hlt'] at hys; cases hys; exact hb'
    · rw [List.getElem?_set_ne (by omega)] at hys
      have hh := hi.holds j c ys hc' hys
      refine ⟨hkeep hh.holds (fun he => ?_), hh.length, hh.pos⟩
      exact absurd (hi.distinct j i c b hc' hb he) hj
  · intro j k c d hc hd he
    rcases hget hc with ⟨rfl, rfl⟩ | ⟨hj, hc'⟩ <;> rcases hget hd with ⟨rfl, rfl⟩ | ⟨hk, hd'⟩
    · rfl
    · exact absurd he.symm (hother hk hd')
    · exact absurd he (hother hj hc')
    · exact hi.distinct j k c d hc' hd' he
  · rintro block ys ⟨⟨n, hn⟩, hs⟩
    have hys : block = b.block → ys.length ≤ xs.length := by
      intro he
      have := hs i b hb he.symm
      rw [hbl.length] at this
      omega
    refine ⟨⟨n, hkeep hn hys⟩, fun j c hc he => ?_⟩
    rcases hget hc with ⟨rfl, rfl⟩ | ⟨hj, hc'⟩
    · rcases hm with ⟨h1, _, h3⟩ | ⟨h1, _, _⟩
      · have := hys (by rw [← he, h1])
        have := hs j b hb (by rw [← he, h1])
        have := hb'.length
        omega
      · have := hn.lt; omega
    · exact hs j c hc' he

theorem add_ok {s : BufState α} {xss : List (List α)} (hi : SInv s xss) {b' : Buf}
    {h' : Heap α} {xs' : List α} (hb' : BHolds h' b' xs') (hm : Fresh s.heap h' b') :
    SInv ⟨h', s.bufs ++ [b']⟩ (xss ++ [xs']) ∧
    ∀ block ys, Safe s block ys → Safe ⟨h', s.bufs ++ [b']⟩ block ys := by
  have hget : ∀ {j : Nat} {c : Buf}, (s.bufs ++ [b'])[j]? = some c →
      j = s.bufs.length ∧ c = b' ∨ j < s.bufs.length ∧ s.bufs[j]? = some c := by
    intro j c hc
    by_cases hj : j < s.bufs.length
    · rw [List.getElem?_append_left hj] at hc; exact .inr ⟨hj, hc⟩
    · rw [List.getElem?_append_right (by omega)] at hc
      have hlt := (List.getElem?_eq_some_iff.mp hc).1
      simp only [List.length_singleton] at hlt
      have : j = s.bufs.length := by omega
      subst this
      simp at hc
      exact .inl ⟨rfl, hc.symm⟩
  have hkeep : ∀ {k n : Nat} {ys : List α}, Holds s.heap k n ys → Holds h' k n ys :=
    fun hh => hh.ext hm.2.2 (fun hc => by have := hh.lt; omega)
  have hlt : ∀ {j : Nat} {c : Buf}, s.bufs[j]? = some c → c.block < s.heap.length := by
    intro j c hc
    have := (List.getElem?_eq_some_iff.mp hc).1
    exact (hi.holds j c _ hc (List.getElem?_eq_getElem (by rw [← hi.length]; exact this))).holds.lt
  refine ⟨⟨by simp [hi.length], ?_, ?_⟩, ?_⟩
  · intro j c ys hc hys
    rcases hget hc with ⟨rfl, rfl⟩ | ⟨hj, hc'⟩
    · rw [hi.length] at hys; simp at hys; subst hys; exact hb'
    · rw [List.getElem?_append_left (by rw [← hi.length]; exact hj)] at hys
      have hh := hi.holds j c ys hc' hys
      exact ⟨hkeep hh.holds, hh.length, hh.pos⟩
  · intro j k c d hc hd he
    rcases hget hc with ⟨rfl, rfl⟩ | ⟨hj, hc'⟩ <;> rcases hget hd with ⟨rfl, rfl⟩ | ⟨hk, hd'⟩
    · rfl
    · have := hlt hd'; have := hm.1; omega
    · have := hlt hc'; have := hm.1; omega
    · exact hi.distinct j k c d hc' hd' he
  · rintro block ys ⟨⟨n, hn⟩, hs⟩
    refine ⟨⟨n, hkeep hn⟩, fun j c hc he => ?_⟩
    rcases hget hc with ⟨rfl, rfl⟩ | ⟨hj, hc'⟩
    · have := hn.lt; have := hm.1; omega
    · exact hs j c hc' he

theorem modify_eq {β : Type} (xss : List β) (i : Nat) (f : β → β) :
    (∀ x, xss[i]? = some x → xss.modify i f = xss.set i (f x)) ∧
    (xss[i]? = none → xss.modify i f = xss) := by
  induction xss generalizing i with
  | nil => simp
  | cons y ys ih => cases i with
    | zero => simp
    | succ i =>
      simp only [List.getElem?_cons_succ, List.modify_succ_cons, List.set_cons_succ]
      exact ⟨fun x hx => by rw [(ih i).1 x hx], fun hx => by rw [(ih i).2 hx]⟩

theorem step_ok (hinit : 1 ≤ o.initial) (hres : 1 < o.resize) {s : BufState α}
    {xss : List (List α)} (hi : SInv s xss) (op : BufOp α) : ∃ s', s.step o op = ok s' ∧
      SInv s' (Spec.apply xss op) ∧ ∀ block ys, Safe s block ys → Safe s' block ys := by
  have hnone : ∀ {i : Nat}, s.bufs[i]? = none → xss[i]? = none := by
    intro i h
    rw [List.getElem?_eq_none_iff] at h ⊢
    rw [← hi.length]; exact h
  have hsome : ∀ {i : Nat} {b : Buf}, s.bufs[i]? = some b → ∃ xs, xss[i]? = some xs := by
    intro i b h
    have := (List.getElem?_eq_some_iff.mp h).1
    exact ⟨_, List.getElem?_eq_getElem (by rw [← hi.length]; exact this)⟩
  cases op with
  | create =>
    obtain ⟨h', b, e1, e2, e3, _⟩ := empty_ok hinit 0 s.heap
    exact ⟨_, by simp only [BufState.step]; rw [e1]; rfl, add_ok hi e2 e3⟩
  | full x n =>
    obtain ⟨h', b, e1, e2, e3⟩ := full_ok hinit x n s.heap
    exact ⟨_, by simp only [BufState.step]; rw [e1]; rfl, add_ok hi e2 e3⟩
  | append i x =>
    cases hb : s.bufs[i]? with
    | none =>
      refine ⟨s, by simp only [BufState.step, hb], ?_, fun _ _ h => h⟩
      simp only [Spec.apply]
      rw [(modify_eq _ _ _).2 (hnone hb)]; exact hi
    | some b =>
      obtain ⟨xs, hxs⟩ := hsome hb
      obtain ⟨h', b', e1, e2, e3⟩ := append_ok hres (hi.holds i b xs hb hxs) x
      refine ⟨⟨h', s.bufs.set i b'⟩, by simp only [BufState.step, hb]; rw [e1]; rfl, ?_⟩
      simp only [Spec.apply]
      rw [(modify_eq _ _ _).1 _ hxs]
      exact replace_ok hi hb hxs e2 e3
  | clear i =>
    cases hb : s.bufs[i]? with
    | none =>
      refine ⟨s, by simp only [BufState.step, hb], ?_, fun _ _ h => h⟩
      simp only [Spec.apply]
      rw [(modify_eq _ _ _).2 (hnone hb)]; exact hi
    | some b =>
      obtain ⟨xs, hxs⟩ := hsome hb
      obtain ⟨h', b', e1, e2, e3⟩ := clear_ok hinit s.heap
      refine ⟨⟨h', s.bufs.set i b'⟩, by simp only [BufState.step, hb]; rw [e1]; rfl, ?_⟩
      simp only [Spec.apply]
      rw [(modify_eq _ _ _).1 _ hxs]
      exact replace_ok hi hb hxs e2 (.inr e3)
  | convert i f =>
    cases hb : s.bufs[i]? with
    | none =>
      refine ⟨s, by simp only [BufState.step, hb], ?_, fun _ _ h => h⟩
      simp only [Spec.apply]
      rw [(modify_eq _ _ _).2 (hnone hb)]; exact hi
    | some b =>
      obtain ⟨xs, hxs⟩ := hsome hb
      obtain ⟨h', b', e1, e2, e3⟩ := convert_ok hinit (hi.holds i b xs hb hxs) f
      refine ⟨⟨h', s.bufs.set i b'⟩, by simp only [BufState.step, hb]; rw [e1]; rfl, ?_⟩
      simp only [Spec.apply]
      rw [(modify_eq _ _ _).1 _ hxs]
      exact replace_ok hi hb hxs e2 (.inr e3)

theorem run_ok (hinit : 1 ≤ o.initial) (hres : 1 < o.resize) {s : BufState α}
    {xss : List (List α)} (hi : SInv s xss) (ops : List (BufOp α)) : ∃ s', s.run o ops = ok s' ∧
      SInv s' (ops.foldl Spec.apply xss) ∧ ∀ block ys, Safe s block ys → Safe s' block ys := by
  induction ops generalizing s xss with
  | nil => exact ⟨s, rfl, hi, fun _ _ h => h⟩
  | cons op ops ih =>
    obtain ⟨s1, a1, a2, a3⟩ := step_ok hinit hres hi op
    obtain ⟨s2, b1, b2, b3⟩ := ih a2
    exact ⟨s2, by simp only [BufState.run]; rw [a1, bind_ok, b1], b2, fun k ys h => b3 k ys (a3 k ys h)⟩

theorem run_append (o : BufOptions) (s : BufState α) (ops ops' : List (BufOp α)) :
    s.run o (ops ++ ops') = s.run o ops >>= fun s => s.run o ops' := by
  induction ops generalizing s with
  | nil => rfl
  | cons op ops ih =>
    simp only [List.cons_append, BufState.run, R.bind_assoc]
    congr 1
    funext s
    exact ih s

theorem inv_init : SInv (⟨[], []⟩ : BufState α) [] := ⟨rfl, by simp, by simp⟩

end Awk
