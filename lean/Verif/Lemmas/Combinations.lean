import Verif.Lemmas.CombinationsKernel
import Verif.Lemmas.ListOps
import Verif.Lemmas.GetitemStep

/-!
# `combinations` of every class
-/

namespace Awk

open R Spec

theorem ListsAt.closed {φ : Content → Prop}
    (hφ : ∀ c' c : Content, c'.cls = c.cls → Content.Local True c' c → φ c → φ c') :
    Content.Closed (ListsAt φ) where
  lazy _ h := .thru rfl (by simpa [Content.children] using h)
  node := by
    intro c' c hc hl hd a h
    cases h with
    | here hn h =>
      refine .here ?_ (hφ _ _ hc hl h)
      cases c <;> simp only [Content.isListNode, Bool.false_eq_true] at hn <;> cases c' <;>
        first | rfl | (simp [Content.cls] at hc)
    | inside hn h1 hch =>
      refine .inside ?_ h1 (fun d' hd' => ?_)
      · cases c <;> simp only [Content.isListNode, Bool.false_eq_true] at hn <;> cases c' <;>
          first | rfl | (simp [Content.cls] at hc)
      · obtain ⟨d, hd1, hd2⟩ := hd d' hd'
        exact hd2 _ (hch d hd1)
    | thru ht hch =>
      refine .thru ?_ (fun d' hd' => ?_)
      · cases c <;> simp only [Content.isThru, Bool.false_eq_true] at ht <;> cases c' <;>
          first | rfl | exact ht | (simp [Content.cls] at hc)
      · obtain ⟨d, hd1, hd2⟩ := hd d' hd'
        exact hd2 _ (hch d hd1)
    | leaf h =>
      refine .leaf ?_
      have := hl.width
      rw [h] at this
      exact List.length_eq_zero_iff.mp this

theorem NotString.closed : Content.Closed (ListsAt NotString) :=
  ListsAt.closed (fun c' c _ hl h => by unfold NotString at h ⊢; rw [hl.params]; exact h)

theorem Wide.closed {repl : Bool} {n : Nat} : Content.Closed (ListsAt (Wide repl n)) :=
  ListsAt.closed (fun c' c _ hl h => by
    intro p d size zeros he
    obtain ⟨p', d', z', he'⟩ := hl.reg p d size zeros he
    exact h _ _ _ _ he')

namespace Content

theorem listsAt_below {φ : Content → Prop} {a : Nat} {c : Content} (h : ListsAt φ (a + 1) c)
    (ha : 1 ≤ a) (hl : c.isListNode = true) : ∀ d ∈ c.children, ListsAt φ a d := by
  cases h with
  | here => omega
  | inside _ _ h => exact h
  | thru ht => cases c <;> simp_all [isListNode, isThru]
  | leaf h => rw [h]; simp

theorem listsAt_here {φ : Content → Prop} {c : Content} (h : ListsAt φ 1 c)
    (hl : c.isListNode = true) : φ c := by
  cases h with
  | here _ h => exact h
  | inside _ h _ => omega
  | thru ht => cases c <;> simp_all [isListNode, isThru]
  | leaf h => cases c <;> simp_all [isListNode, children]

theorem listsAt_child {φ : Content → Prop} {a : Nat} {c : Content} (h : ListsAt φ a c)
    (ht : c.isThru true = true) : ∀ d ∈ c.children, ListsAt φ a d := by
  cases h with
  | here hl => cases c <;> simp_all [isListNode, isThru]
  | inside hl => cases c <;> simp_all [isListNode, isThru]
  | thru _ h => exact h
  | leaf h => rw [h]; simp

theorem throughOptionLazy_tot {c : Content} {f : Content → R Content} {F : Val → Val} {hh : Prop}
    (h : c.Good)
    (hk : (∃ p index d, c = indexedOption p index d) ∨ (∃ p mask vw d, c = byteMasked p mask vw d))
    (hF : F .null = .null)
    (hf : ∀ next, next.Good → next.rank ≤ c.inner.rank + 1 → Picks next c.inner c.shown →
      Gathered next c.inner → (f next).Tot hh (fun out => Maps next out F)) :
    (throughOptionLazy f c c.inner).Tot hh (fun c' => c'.len = c.len ∧ Maps c c' F) := by
  have ho : c.isOption = true := by
    rcases hk with ⟨p, index, d, rfl⟩ | ⟨p, mask, vw, d, rfl⟩ <;> rfl
  obtain ⟨numnull, h1, _⟩ := nextcarryOutindex_ok h hk
  obtain ⟨next, h2, h3, h4, h5⟩ := carry_good (inner_good h) true (shown_good h ho)
  unfold throughOptionLazy
  rw [h1, bind_ok]
  simp only
  rw [h2, bind_ok]
  refine (hf next h3 (by simpa using h4) h5 (.inr ⟨_, _, shown_good h ho, h2⟩)).bind
    (fun out hm => ?_)
  obtain ⟨c', e1, e2, e3⟩ := outIndex_simplify h (isOption_imp ho) hF h5 hm
  rw [e1]
  exact .ok ⟨e2, e3⟩

/-- A record array whose field `k` holds the items at position `k` of the picks. -/
theorem pickRecord {n : Nat} {c : Content} {T : List (List Int)} {cs : List Content} (p : Params)
    (keys : Option (List String)) (hn : 1 ≤ n) (hT : ∀ t ∈ T, t.length = n)
    (hcs : List.Forall₂ (fun (idx : List Int) (c' : Content) => c'.Good ∧ Picks c' c idx)
      ((List.range n).map (fun k => T.map (fun t => t[k]?.getD 0))) cs) :
    (recordOfContents p keys 0 cs).Good ∧ (recordOfContents p keys 0 cs).len = T.length ∧
      ∀ i (h : i < T.length), (recordOfContents p keys 0 cs).valD i
        = mkRecord keys (T[i].map (fun j => c.valD j.toNat)) := by
  have hl : cs.length = n := by rw [← hcs.length_eq]; simp
  have hne : cs ≠ [] := by rintro rfl; simp at hl; omega
  obtain ⟨L, e1, e2, e3⟩ := recordOfContents_eq (p := p) (keys := keys) (z := 0) hne
  have hk : ∀ k (h : k < n), (cs[k]'(by omega)).Good ∧
      Picks (cs[k]'(by omega)) c (T.map (fun t => t[k]?.getD 0)) := by
    intro k h
    have := List.forall₂_iff_get.mp hcs
    have := this.2 k (by simpa using h) (by omega)
    simpa using this
  have hmem : ∀ d ∈ cs, d.Good ∧ d.len = T.length := by
    intro d hd
    obtain ⟨k, hk', rfl⟩ := List.mem_iff_getElem.mp hd
    refine ⟨(hk k (by omega)).1, ?_⟩
    rw [(hk k (by omega)).2.1]; simp
  have hL : L = T.length := by
    have h1 := e3 T.length (fun d hd => (hmem d hd).2.ge)
    obtain ⟨d, hd⟩ := List.exists_mem_of_ne_nil cs hne
    have h2 := e2 d hd
    rw [(hmem d hd).2] at h2
    omega
  have hg : (record p keys cs L).Good :=
    good_record.mpr ⟨fun d hd => by rw [(hmem d hd).2, hL], fun d hd => (hmem d hd).1⟩
  rw [e1]
  refine ⟨hg, hL, ?_⟩
  intro i hi
  rw [valD_record hg (by omega)]
  congr 1
  apply List.ext_getElem
  · simp [hl, hT T[i] (List.getElem_mem hi)]
  · intro k h1 h2
    simp only [List.length_map] at h1 h2
    rw [List.getElem_map, List.getElem_map, (hk k (by omega)).2.valD (by simpa using hi)]
    simp [h2]

theorem allPicks_length {n : Nat} {repl : Bool} {st sp : Nat → Int} {length : Nat} {t : List Int}
    (ht : t ∈ allPicks repl n st sp length) : t.length = n ∧
      ∃ i, i < length ∧ ∀ x ∈ t, st i ≤ x ∧ x < sp i := by
  unfold allPicks at ht
  obtain ⟨l, hl1, hl2⟩ := List.mem_flatten.mp ht
  obtain ⟨i, hi, rfl⟩ := List.mem_map.mp hl1
  unfold ints at hl2
  rw [choose_map] at hl2
  obtain ⟨t', h, rfl⟩ := List.mem_map.mp hl2
  obtain ⟨h1, h2, _⟩ := (mem_choose List.pairwise_lt_range).mp h
  refine ⟨by simpa using h1, i, List.mem_range.mp hi, ?_⟩
  intro x hx
  obtain ⟨d, hd, rfl⟩ := List.mem_map.mp hx
  have := List.mem_range.mp (h2 d hd)
  omega

/-- The fields of all picks of the lists in `[st i, sp i)`. -/
theorem carryPicks {n : Nat} {repl : Bool} {st sp : Nat → Int} {length : Nat} {c : Content}
    (hn : 1 ≤ n) (hc : c.Good) (hp : ∀ i, i < length → GoodPair (st i) (sp i) c.len) (p : Params)
    (keys : Option (List String)) :
    ∃ cs, mapR (fun index => c.carry true index)
        ((List.range n).map (fun k => (allPicks repl n st sp length).map (fun t => t[k]?.getD 0)))
          = ok cs ∧
      (recordOfContents p keys 0 cs).Good ∧
      (recordOfContents p keys 0 cs).len
        = sumTo (fun i => picks repl n (sp i - st i).toNat) length ∧
      ∀ i, i < length →
        (recordOfContents p keys 0 cs).seg (sumTo (fun i => picks repl n (sp i - st i).toNat) i)
          (picks repl n (sp i - st i).toNat)
          = (choose repl n (c.seg (st i).toNat (sp i - st i).toNat)).map (mkRecord keys) := by
  have hin : ∀ idx ∈ (List.range n).map (fun k =>
      (allPicks repl n st sp length).map (fun t => t[k]?.getD 0)), InRange idx c.len := by
    intro idx hidx
    obtain ⟨k, hk, rfl⟩ := List.mem_map.mp hidx
    intro x hx
    obtain ⟨t, ht, rfl⟩ := List.mem_map.mp hx
    obtain ⟨h1, i, hi, h2⟩ := allPicks_length ht
    have hk' : k < t.length := by rw [h1]; exact List.mem_range.mp hk
    rw [List.getElem?_eq_getElem hk', Option.getD_some]
    have h3 := h2 t[k] (List.getElem_mem hk')
    rcases hp i hi with h | h <;> omega
  have htot : (mapR (fun index => c.carry true index)
      ((List.range n).map (fun k => (allPicks repl n st sp length).map (fun t => t[k]?.getD 0)))).Tot
      True (fun cs => List.Forall₂ (fun (idx : List Int) (c' : Content) => c'.Good ∧ Picks c' c idx)
        ((List.range n).map (fun k => (allPicks repl n st sp length).map (fun t => t[k]?.getD 0)))
        cs) := by
    apply mapR_tot
    intro idx hidx
    obtain ⟨c', e1, e2, _, e4⟩ := carry_good hc true (hin idx hidx)
    rw [e1]
    exact .ok ⟨e2, e4⟩
  obtain ⟨cs, hcs⟩ := htot.2 trivial
  have hF := htot.1
  rw [hcs, sat_ok] at hF
  obtain ⟨g1, g2, g3⟩ := pickRecord p keys hn (fun t ht => (allPicks_length ht).1) hF
  have hlen : ∀ i, (choose repl n (ints (st i) (sp i - st i).toNat)).length
      = picks repl n (sp i - st i).toNat := fun i => by rw [choose_length, ints_length]
  have hsum : ∀ m, sumTo (fun i => (choose repl n (ints (st i) (sp i - st i).toNat)).length) m
      = sumTo (fun i => picks repl n (sp i - st i).toNat) m :=
    fun m => sumTo_congr (fun i _ => hlen i)
  have hT : (allPicks repl n st sp length).length
      = sumTo (fun i => picks repl n (sp i - st i).toNat) length := by
    unfold allPicks
    rw [flatten_map_length, hsum]
  refine ⟨cs, hcs, g1, by rw [g2, hT], ?_⟩
  intro i hi
  have hseg : c.seg (st i).toNat (sp i - st i).toNat
      = (ints (st i) (sp i - st i).toNat).map (fun j => c.valD j.toNat) := by
    unfold Content.seg ints
    rw [List.map_map]
    apply List.map_congr_left
    intro d hd
    have := List.mem_range.mp hd
    simp only [Function.comp]
    rcases hp i hi with h | h
    · omega
    · congr 1; omega
  rw [hseg, choose_map, List.map_map]
  apply List.ext_getElem?
  intro k
  by_cases hk : k < picks repl n (sp i - st i).toNat
  · have hk' : k < (choose repl n (ints (st i) (sp i - st i).toNat)).length := by rw [hlen]; exact hk
    have hget := flatten_map_get (n := length)
      (fun i => choose repl n (ints (st i) (sp i - st i).toNat)) hi hk'
    rw [hsum] at hget
    rw [seg_getElem?, if_pos hk, List.getElem?_map, List.getElem?_eq_getElem hk', Option.map_some]
    rw [List.getElem?_eq_getElem hk'] at hget
    obtain ⟨hb, he⟩ := List.getElem?_eq_some_iff.mp hget
    rw [g3 _ hb]
    simp only [Function.comp]
    rw [← he]
    rfl
  · rw [List.getElem?_eq_none (by rw [seg_length]; omega),
      List.getElem?_eq_none (by rw [List.length_map, hlen]; omega)]

theorem ListArray_combinations_length_ok {n : Nat} {repl : Bool} {starts stops : List Int}
    {length : Nat} (hn : 1 ≤ n) (h1 : length ≤ starts.length) (h2 : length ≤ stops.length)
    (hp : ∀ i (h : i < length), starts[i] ≤ stops[i]) :
    ListArray_combinations_length (alloc ((length + 1 : Nat) : Int)) n repl starts stops length
      = ok ((sumTo (fun i => picks repl n (pairLen starts stops i)) length : Int),
          offsTo (fun i => picks repl n (pairLen starts stops i)) length) := by
  set f := fun i => picks repl n (pairLen starts stops i) with hf
  unfold ListArray_combinations_length
  have hw : wr (alloc ((length + 1 : Nat) : Int)) 0 0 = ok ((alloc ((length + 1 : Nat) : Int)).set 0 0) :=
    wr_nat_ok (i := 0) (by rw [alloc_length]; omega)
  rw [hw, bind_ok]
  obtain ⟨s, e1, e2, e3, e4⟩ := forN_inv (n := length)
    (s := ((0 : Int), (alloc ((length + 1 : Nat) : Int)).set 0 0))
    (body := fun i st =>
      rd stops (i : Int) >>= fun stop => rd starts (i : Int) >>= fun start =>
      combinations_count n repl (stop - start) >>= fun len =>
      rd st.2 (i : Int) >>= fun x => wr st.2 ((i + 1 : Nat) : Int) (x + len) >>= fun tooffsets =>
      ok (st.1 + len, tooffsets))
    (fun m st => st.1 = (sumTo f m : Int) ∧ st.2.length = length + 1 ∧
      ∀ i, i ≤ m → st.2[i]? = some (sumTo f i : Int))
    ⟨rfl, by rw [List.length_set, alloc_length], by
      intro i hi
      obtain rfl : i = 0 := by omega
      rw [List.getElem?_set_self (by rw [alloc_length]; omega)]; rfl⟩ (by
      rintro i hi ⟨a, b⟩ ⟨g1, g2, g3⟩
      simp only at g1 g2 g3 ⊢
      have hle := hp i hi
      have hlen : stops[i] - starts[i] = ((pairLen starts stops i : Nat) : Int) := by
        simp only [pairLen]
        rw [List.getElem?_eq_getElem (by omega), List.getElem?_eq_getElem (by omega)]
        simp only [Option.getD_some]; omega
      rw [rd_nat_ok (by omega), bind_ok, rd_nat_ok (by omega), bind_ok, hlen,
        combinations_count_ok hn, bind_ok]
      have hb : b[i]'(by omega) = (sumTo f i : Int) := by
        have := g3 i (Nat.le_refl _)
        exact (List.getElem?_eq_some_iff.mp this).2
      rw [rd_nat_ok (by omega), bind_ok, hb, wr_nat_ok (by omega), bind_ok]
      refine ⟨_, rfl, ?_, by simpa using g2, ?_⟩
      · simp only; rw [g1, sumTo_succ]; push_cast; rfl
      · intro k hk
        simp only
        by_cases he : k = i + 1
        · subst he
          rw [List.getElem?_set_self (by omega), sumTo_succ]; push_cast; rfl
        · rw [List.getElem?_set_ne (by omega)]; exact g3 k (by omega))
  rw [e1]
  congr 1
  refine Prod.ext e2 ?_
  simp only
  apply List.ext_getElem?
  intro i
  by_cases hi : i < length + 1
  · rw [e4 i (by omega), List.getElem?_eq_getElem (by simpa using hi), offsTo_getElem]
  · rw [List.getElem?_eq_none (by omega), List.getElem?_eq_none (by simp; omega)]

theorem listCombinations_ok {n : Nat} {repl : Bool} {starts stops : List Int} {length : Nat}
    {c : Content} (hn : 1 ≤ n) (hc : c.Good) (h1 : length ≤ starts.length)
    (h2 : length ≤ stops.length) (hp : ∀ i (h : i < length), GoodPair starts[i] stops[i] c.len)
    (keys : Option (List String)) (p : Params) :
    ∃ r, listCombinations n repl keys p starts stops length c
        = ok (listOffset {} (offsTo (fun i => picks repl n (pairLen starts stops i)) length) r) ∧
      r.Good ∧ r.len = sumTo (fun i => picks repl n (pairLen starts stops i)) length ∧
      ∀ i (h : i < length), r.seg (sumTo (fun i => picks repl n (pairLen starts stops i)) i)
          (picks repl n (pairLen starts stops i))
        = (choose repl n (c.seg starts[i].toNat (stops[i] - starts[i]).toNat)).map (mkRecord keys) := by
  set st : Nat → Int := fun i => starts[i]?.getD 0 with hst
  set sp : Nat → Int := fun i => stops[i]?.getD 0 with hsp
  have hst' : ∀ i (h : i < length), st i = starts[i] := fun i h => by
    simp [hst, show i < starts.length by omega]
  have hsp' : ∀ i (h : i < length), sp i = stops[i] := fun i h => by
    simp [hsp, show i < stops.length by omega]
  obtain ⟨cs, g1, g2, g3, g4⟩ := carryPicks (repl := repl) (st := st) (sp := sp) (length := length)
    hn hc (fun i hi => by rw [hst' i hi, hsp' i hi]; exact hp i hi) p keys
  refine ⟨recordOfContents p keys 0 cs, ?_, g2, g3, ?_⟩
  · unfold listCombinations
    rw [show ((length : Int) + 1) = ((length + 1 : Nat) : Int) by push_cast; rfl]
    rw [ListArray_combinations_length_ok hn h1 h2 (fun i hi => (hp i hi).le), bind_ok]
    simp only
    unfold ListArray_combinations
    rw [combinations_kernel_ok hn (st := st) (sp := sp)
      (fun i hi => by rw [rd_nat_ok (by omega), hst' i hi])
      (fun i hi => by rw [rd_nat_ok (by omega), hsp' i hi])
      (by rw [alloc_length]) (by rw [alloc_length]) (by
        unfold allPicks
        rw [flatten_map_length]
        exact sumTo_congr (fun i _ => by rw [choose_length, ints_length]; rfl)), bind_ok, g1, bind_ok]
  · intro i hi
    have := g4 i hi
    rw [hst' i hi, hsp' i hi] at this
    have e : (stops[i] - starts[i]).toNat = pairLen starts stops i := by
      rw [← hst' i hi, ← hsp' i hi]; rfl
    rw [← this, e]; rfl

theorem picks_zero_of_empty {n : Nat} {repl : Bool} (hn : 1 ≤ n) : picks repl n 0 = 0 := by
  unfold picks
  exact Nat.choose_eq_zero_of_lt (by split <;> omega)

theorem regularCombinations_ok {n : Nat} {repl : Bool} {size length : Nat} {c : Content}
    (hn : 1 ≤ n) (hc : c.Good) (hb : length * size ≤ c.len)
    (hw : repl = true ∨ size = 0 ∨ n ≤ size) (keys : Option (List String)) (p : Params) :
    ∃ r, regularCombinations n repl keys p size length c
        = ok (regular {} r (picks repl n size) length) ∧
      r.Good ∧ r.len = length * picks repl n size ∧
      ∀ i, i < length → r.seg (i * picks repl n size) (picks repl n size)
        = (choose repl n (c.seg (i * size) size)).map (mkRecord keys) := by
  set st : Nat → Int := fun i => (size : Int) * i with hst
  set sp : Nat → Int := fun i => (size : Int) * i + size with hsp
  have hd : ∀ i, (sp i - st i).toNat = size := fun i => by simp only [hst, hsp]; omega
  have hfun : (fun i => picks repl n (sp i - st i).toNat) = fun _ => picks repl n size := by
    funext i; rw [hd]
  obtain ⟨cs, g1, g2, g3, g4⟩ := carryPicks (repl := repl) (st := st) (sp := sp) (length := length)
    hn hc (fun i hi => by
      refine .inr ?_
      have h1 : (i + 1) * size ≤ length * size := Nat.mul_le_mul_right _ hi
      have h2 : (i + 1) * size = size * i + size := by ring
      have h3 : ((size * i + size : Nat) : Int) ≤ c.len := by
        have : size * i + size ≤ c.len := by omega
        exact_mod_cast this
      push_cast at h3
      simp only [hst, hsp]
      refine ⟨by positivity, by omega, h3⟩) p keys
  rw [hfun] at g3
  simp only [hfun, hd, sumTo_const] at g3 g4
  have hT : (allPicks repl n st sp length).length = picks repl n size * length := by
    unfold allPicks
    rw [flatten_map_length, sumTo_congr (g := fun _ => picks repl n size)
      (fun i _ => by rw [choose_length, ints_length, hd]), sumTo_const, Nat.mul_comm]
  refine ⟨recordOfContents p keys 0 cs, ?_, g2, g3, ?_⟩
  · unfold regularCombinations
    rw [combinations_count_ok hn, bind_ok]
    simp only
    have htc : (if size ≠ 0 then
        RegularArray_combinations (List.replicate n (alloc ((picks repl n size : Int) * length)))
          (alloc (if repl = true then (size : Int) + (n - 1) else size))
          (alloc (if repl = true then (size : Int) + (n - 1) else size)) n repl size length
        else ok (List.replicate n (alloc ((picks repl n size : Int) * length))))
        = ok ((List.range n).map (fun k => (allPicks repl n st sp length).map
            (fun t => t[k]?.getD 0))) := by
      rw [show ((picks repl n size : Int) * length) = ((picks repl n size * length : Nat) : Int) by
        push_cast; rfl]
      by_cases h0 : size = 0
      · rw [if_neg (by simpa using h0)]
        congr 1
        have hnil : allPicks repl n st sp length = [] := by
          apply List.length_eq_zero_iff.mp
          rw [hT, h0, picks_zero_of_empty hn, Nat.zero_mul]
        rw [hnil, h0, picks_zero_of_empty hn, Nat.zero_mul]
        apply List.ext_getElem
        · simp
        · intro k h1 h2
          simp [alloc]
      · rw [if_pos h0]
        unfold RegularArray_combinations
        have hbuf : n ≤ (alloc (if repl = true then (size : Int) + (n - 1) else size)).length := by
          rw [show (if repl = true then (size : Int) + (n - 1) else (size : Int))
            = ((if repl = true then size + n - 1 else size : Nat) : Int) by split <;> omega,
            alloc_length]
          cases repl
          · simp only [Bool.false_eq_true, if_false, false_or] at hw ⊢
            rcases hw with h | h
            · exact absurd h h0
            · exact h
          · simp only [if_true]; omega
        exact combinations_kernel_ok hn (st := st) (sp := sp) (fun i _ => rfl) (fun i _ => rfl)
          hbuf hbuf hT
    rw [htc, bind_ok, g1, bind_ok]
    simp
  · intro i hi
    have := g4 i hi
    rw [this]
    congr 3
    simp only [hst]
    rw [show ((size : Int) * i).toNat = i * size by
      rw [show (size : Int) * i = ((i * size : Nat) : Int) by push_cast; ring]; omega]

theorem combine_wrapList {repl : Bool} {n : Nat} {keys : Option (List String)} (p : Params)
    (vs : List Val) : combine repl n keys (wrapList p vs)
      = .list ((choose repl n vs).map (mkRecord keys)) := by
  unfold combine wrapList
  split <;> rfl

theorem isStringLike_iff {p : Params} :
    isStringLike p = true ↔ p.arr = .string ∨ p.arr = .bytestring := by
  unfold isStringLike
  split <;> simp_all

theorem combinationsF_ok {n : Nat} {repl : Bool} (keys : Option (List String)) (p : Params)
    (hn : 1 ≤ n) {f a : Nat} {c : Content} (h : c.Good) (hr : c.rank ≤ f) (ha : 1 ≤ a)
    (hw : ListsAt (Wide repl n) a c) :
    (combinationsF n repl keys p f a c).Tot (HasAxis true true a c ∧ ListsAt NotString a c)
      (fun c' => MapsG True c c' (Val.mapAxis false (combine repl n keys) a)) := by
  induction f generalizing a c with
  | zero => exfalso; cases c <;> simp [rank] at hr
  | succ f ih =>
    have hnull := Val.mapAxis_null false (combine repl n keys) a
    obtain ⟨b, rfl⟩ : ∃ b, a = b + 1 := ⟨a - 1, by omega⟩
    cases c <;> simp only [combinationsF, rank] at hr ⊢
    case empty q =>
      exact .ok ⟨⟨good_empty _, Nat.le_refl _, fun i hi => by simp [len] at hi⟩, fun _ => rfl⟩
    case numpy q dt data => exact .err (fun hh => not_hasAxis_numpy hh.1)
    case regular q c size zeros =>
      have hc := good_regular.mp h
      have hbound : (regular q c size zeros).len * size ≤ c.len := by
        simp only [len]
        split
        · exact Nat.div_mul_le_self _ _
        · rw [show size = 0 by omega]; simp
      by_cases hb : b = 0
      · subst hb
        rw [if_pos rfl]
        by_cases hs : isStringLike q = true
        · rw [if_pos hs]
          refine .err (fun hh => ?_)
          have := listsAt_here hh.2 rfl
          rcases isStringLike_iff.mp hs with e | e
          · exact this.1 e
          · exact this.2 e
        · rw [if_neg hs]
          obtain ⟨r, e1, e2, e3, e4⟩ := regularCombinations_ok (repl := repl) hn hc hbound
            (listsAt_here hw rfl q c size zeros rfl) keys p
          rw [e1]
          set m := (regular q c size zeros).len with hm
          have hll : (regular {} r (picks repl n size) m).len = m := by
            rw [len, e3]
            split
            · rw [Nat.mul_div_cancel _ (by omega)]
            · rfl
          refine .ok ⟨⟨good_regular.mpr e2, by rw [hll], ?_⟩, fun _ => by rw [hll]⟩
          intro i hi
          rw [valD_regular e2 (by rw [hll]; exact hi), valD_regular hc hi, Val.mapAxis_one,
            combine_wrapList, e4 i hi, wrapList_default]
      · rw [if_neg (by omega), show b + 1 - 1 = b by omega]
        obtain ⟨c1, g1, g2, g3, g4⟩ := range_good hc (a := 0)
          (b := (regular q c size zeros).len * size) (by omega) hbound
        rw [show ((0 : Nat) : Int) = 0 from rfl] at g1
        rw [g1, bind_ok]
        have hlen1 : c1.len = (regular q c size zeros).len * size := by rw [g4.1.1]; omega
        have hll : (regular q c1 size (regular q c size zeros).len).len
            = (regular q c size zeros).len := by
          rw [len, hlen1]
          split
          · rw [Nat.mul_div_cancel _ (by omega)]
          · rfl
        refine ((ih g2 (a := b) (by omega) (by omega)
          (range_closed Wide.closed hc hbound g1 _ (listsAt_below hw (by omega) rfl c (by simp [children])))).mono (fun hh =>
          ⟨range_closed (HasAxis.closed true true) hc hbound g1 _ (hasAxis_below hh.1 (by omega) rfl c (by simp [children])),
           range_closed NotString.closed hc hbound g1 _ (listsAt_below hh.2 (by omega) rfl c (by simp [children]))⟩)
          (fun _ h => h)).bind (fun next hm => .ok ?_)
        have := MapsG.regular (p := q) (size := size) (zeros := (regular q c size zeros).len)
          g2 (by omega) hm
        rw [hll] at this
        refine this.of_eq hll (fun i hi => ?_)
        rw [valD_regular g2 (by rw [hll]; exact hi), valD_regular hc hi]
        congr 1
        unfold Content.seg
        apply List.map_congr_left
        intro k hk
        have hk' := List.mem_range.mp hk
        have h1 : (i + 1) * size ≤ (regular q c size zeros).len * size := Nat.mul_le_mul_right _ hi
        have h2 : (i + 1) * size = i * size + size := by ring
        rw [g4.1.valD (by omega)]
        simp
    case listArray q starts stops c =>
      obtain ⟨hl, hc, hp⟩ := good_listArray.mp h
      by_cases hb : b = 0
      · subst hb
        rw [if_pos rfl]
        by_cases hs : isStringLike q = true
        · rw [if_pos hs]
          refine .err (fun hh => ?_)
          have := listsAt_here hh.2 rfl
          rcases isStringLike_iff.mp hs with e | e
          · exact this.1 e
          · exact this.2 e
        · rw [if_neg hs]
          obtain ⟨r, e1, e2, e3, e4⟩ := listCombinations_ok (repl := repl) hn hc (Nat.le_refl _) hl
            hp keys p
          rw [e1]
          refine .ok ⟨⟨good_offsTo e2 (by rw [e3]), by simp [len], ?_⟩, fun _ => by simp [len]⟩
          intro i hi
          simp only [len] at hi
          rw [valD_offsTo e2 (by rw [e3]) hi, valD_listArray h hi (by omega), Val.mapAxis_one,
            combine_wrapList, e4 i hi, wrapList_default]
      · rw [if_neg (by omega), show b + 1 - 1 = b by omega]
        obtain ⟨offs, d, g1, g2, g3⟩ := listParts_ok h rfl
        obtain ⟨e, he, hg⟩ := g2.src
        rw [g1, bind_ok]
        refine ((ih g2.good (a := b) (by simp only [rank] at g3; omega) (by omega)
          (hg.closed Wide.closed (h.child he) _ (listsAt_below hw (by omega) rfl e he))).mono (fun hh =>
            ⟨hg.closed (HasAxis.closed true true) (h.child he) _ (hasAxis_below hh.1 (by omega) rfl e he),
             hg.closed NotString.closed (h.child he) _ (listsAt_below hh.2 (by omega) rfl e he)⟩)
          (fun _ h => h)).bind (fun next hm => .ok ?_)
        exact MapsG.parts g2 (by omega) hm
    case listOffset q offsets c =>
      obtain ⟨hl, hc, hp⟩ := good_listOffset.mp h
      by_cases hb : b = 0
      · subst hb
        rw [if_pos rfl]
        by_cases hs : isStringLike q = true
        · rw [if_pos hs]
          refine .err (fun hh => ?_)
          have := listsAt_here hh.2 rfl
          rcases isStringLike_iff.mp hs with e | e
          · exact this.1 e
          · exact this.2 e
        · rw [if_neg hs]
          have hs : ∀ i (h : i < offsets.length - 1), (makeStarts offsets)[i]'(by
              simp [makeStarts]; omega) = offsets[i] := by
            intro i hi; simp [makeStarts]
          have ht : ∀ i (h : i < offsets.length - 1), (makeStops offsets)[i]'(by
              simp [makeStops]; omega) = offsets[i + 1] := by
            intro i hi; simp [makeStops]
          obtain ⟨r, e1, e2, e3, e4⟩ := listCombinations_ok (repl := repl)
            (starts := makeStarts offsets) (stops := makeStops offsets)
            (length := (listOffset q offsets c).len) hn hc (by simp [makeStarts, len])
            (by simp [makeStops, len]) (fun i hi => by
              simp only [len] at hi
              rw [hs i hi, ht i hi]; exact hp i (by omega)) keys p
          rw [e1]
          refine .ok ⟨⟨good_offsTo e2 (by rw [e3]), by simp [len], ?_⟩, fun _ => by simp [len]⟩
          intro i hi
          have hi' := hi
          simp only [len] at hi'
          rw [valD_offsTo e2 (by rw [e3]) hi, valD_listOffset h (by omega), Val.mapAxis_one,
            combine_wrapList, e4 i hi, wrapList_default, hs i hi', ht i hi']
      · rw [if_neg (by omega), show b + 1 - 1 = b by omega]
        obtain ⟨offs, d, g1, g2, g3⟩ := listParts_ok h rfl
        obtain ⟨e, he, hg⟩ := g2.src
        rw [g1, bind_ok]
        refine ((ih g2.good (a := b) (by simp only [rank] at g3; omega) (by omega)
          (hg.closed Wide.closed (h.child he) _ (listsAt_below hw (by omega) rfl e he))).mono (fun hh =>
            ⟨hg.closed (HasAxis.closed true true) (h.child he) _ (hasAxis_below hh.1 (by omega) rfl e he),
             hg.closed NotString.closed (h.child he) _ (listsAt_below hh.2 (by omega) rfl e he)⟩)
          (fun _ h => h)).bind (fun next hm => .ok ?_)
        exact MapsG.parts g2 (by omega) hm
    case indexed q index c =>
      obtain ⟨c', h1, h2, h3, h4, h5, h6⟩ := project_indexed h
      have hc := (good_indexed.mp h).1
      rw [h1, bind_ok]
      refine (ih h2 (a := b + 1) (by omega) (by omega)
        (h6.closed Wide.closed hc _ (listsAt_child hw rfl c (by simp [children])))).mono (fun hh => ?_)
        (fun _ hm => hm.of_eq h4 h5)
      exact ⟨h6.closed (HasAxis.closed true true) hc _ (hasAxis_child hh.1 rfl c (by simp [children])),
        h6.closed NotString.closed hc _ (listsAt_child hh.2 rfl c (by simp [children]))⟩
    case indexedOption q index c =>
      have hc := (good_indexedOption.mp h).1
      refine (throughOptionLazy_tot (c := indexedOption q index c) h (.inl ⟨_, _, _, rfl⟩) hnull
        (fun next g1 g2 g3 g4 => ?_)).mono (fun h => h) (fun _ hm => ⟨hm.2, fun _ => hm.1⟩)
      simp only [inner] at g2
      refine (ih g1 (a := b + 1) (by omega) (by omega)
        (g4.closed Wide.closed hc _ (listsAt_child hw rfl c (by simp [children])))).mono (fun hh => ?_)
        (fun _ hm => hm.toMaps)
      exact ⟨g4.closed (HasAxis.closed true true) hc _ (hasAxis_child hh.1 rfl c (by simp [children])),
        g4.closed NotString.closed hc _ (listsAt_child hh.2 rfl c (by simp [children]))⟩
    case byteMasked q mask vw c =>
      have hc := (good_byteMasked.mp h).2
      refine (throughOptionLazy_tot (c := byteMasked q mask vw c) h (.inr ⟨_, _, _, _, rfl⟩) hnull
        (fun next g1 g2 g3 g4 => ?_)).mono (fun h => h) (fun _ hm => ⟨hm.2, fun _ => hm.1⟩)
      simp only [inner] at g2
      refine (ih g1 (a := b + 1) (by omega) (by omega)
        (g4.closed Wide.closed hc _ (listsAt_child hw rfl c (by simp [children])))).mono (fun hh => ?_)
        (fun _ hm => hm.toMaps)
      exact ⟨g4.closed (HasAxis.closed true true) hc _ (hasAxis_child hh.1 rfl c (by simp [children])),
        g4.closed NotString.closed hc _ (listsAt_child hh.2 rfl c (by simp [children]))⟩
    case bitMasked q mask vw length lsb c =>
      obtain ⟨bm, h1, h2, h3, h4⟩ := toByteMasked_bit h
      rw [h1, bind_ok]
      refine (ih h3 (a := b + 1) (by simp only [rank]; omega) (by omega)
        (.thru rfl (fun d hd => listsAt_child hw rfl d (by simpa [children] using hd)))).mono (fun hh => ?_)
        (fun _ hm => hm.of_eq h2 h4)
      exact ⟨.thru rfl (fun d hd => hasAxis_child hh.1 rfl d (by simpa [children] using hd)),
        .thru rfl (fun d hd => listsAt_child hh.2 rfl d (by simpa [children] using hd))⟩
    case unmasked q c =>
      refine ((ih (good_unmasked.mp h) (a := b + 1) (by omega) (by omega)
        (listsAt_child hw rfl c (by simp [children]))).mono
        (fun hh => ⟨hasAxis_child hh.1 rfl c (by simp [children]),
          listsAt_child hh.2 rfl c (by simp [children])⟩) (fun _ h => h)).bind
        (fun next hm => .ok ?_)
      exact MapsG.unmasked hm
    case record q ks cs length =>
      obtain ⟨hlen, hcs⟩ := good_record.mp h
      refine (mapR_tot (P := fun c c' => MapsG True c c' (Val.mapAxis false (combine repl n keys) (b + 1)))
        (fun c hc => (ih (hcs c hc) (a := b + 1) (by have := rank_le_rankAll hc; omega)
          (by omega) (listsAt_child hw rfl c (by simpa [children] using hc))).mono
            (fun hh => ⟨hasAxis_child hh.1 rfl c (by simpa [children] using hc),
              listsAt_child hh.2 rfl c (by simpa [children] using hc)⟩) (fun _ h => h))).bind
        (fun cs' hm => .ok ?_)
      refine MapsG.record h (hm.imp (fun _ _ h => h.toMaps)) (Nat.le_refl _) ?_ (fun _ => rfl)
      intro d hd
      obtain ⟨e, he, hr⟩ := forall₂_mem hm hd
      rw [hr.exact trivial]; exact hlen e he
    case union q tags index cs =>
      obtain ⟨hl, hcs, _⟩ := good_union.mp h
      refine (mapR_tot (P := fun c c' => MapsG True c c' (Val.mapAxis false (combine repl n keys) (b + 1)))
        (fun c hc => (ih (hcs c hc) (a := b + 1) (by have := rank_le_rankAll hc; omega)
          (by omega) (listsAt_child hw rfl c (by simpa [children] using hc))).mono
            (fun hh => ⟨hasAxis_child hh.1 rfl c (by simpa [children] using hc),
              listsAt_child hh.2 rfl c (by simpa [children] using hc)⟩) (fun _ h => h))).bind
        (fun cs' hm => .ok ?_)
      exact MapsG.union h (hm.imp (fun _ _ h => h.toMaps))

/-- `combinations_axis0`. -/
theorem combinationsAxis0_ok {n : Nat} {repl : Bool} (keys : Option (List String)) (p : Params)
    (hn : 1 ≤ n) {c : Content} (h : c.Good) :
    ∃ c', combinationsAxis0 n repl keys p c = ok c' ∧ c'.Good ∧
      (List.range c'.len).map c'.valD
        = (choose repl n ((List.range c.len).map c.valD)).map (mkRecord keys) := by
  unfold combinationsAxis0
  rw [combinations_count_ok hn, bind_ok]
  unfold RegularArray_combinations
  set st : Nat → Int := fun i => (c.len : Int) * i with hst
  set sp : Nat → Int := fun i => (c.len : Int) * i + c.len with hsp
  have h0 : st 0 = 0 := by simp [hst]
  have h1 : sp 0 = c.len := by simp [hsp]
  have hpk : allPicks repl n st sp 1 = choose repl n (ints 0 c.len) := by
    simp [allPicks, h0, h1]
  rw [combinations_kernel_ok hn (st := st) (sp := sp) (fun i _ => rfl) (fun i _ => rfl)
    (by rw [alloc_length]) (by rw [alloc_length]) (by rw [hpk, choose_length, ints_length]), bind_ok]
  have hmem : ∀ t ∈ allPicks repl n st sp 1, t.length = n ∧ ∀ x ∈ t, 0 ≤ x ∧ x < c.len := by
    intro t ht
    obtain ⟨g1, i, hi, g2⟩ := allPicks_length ht
    obtain rfl : i = 0 := by omega
    rw [h0, h1] at g2
    exact ⟨g1, g2⟩
  obtain ⟨g1, g2, g3⟩ := pickRecord (c := c) (T := allPicks repl n st sp 1)
    (cs := ((List.range n).map (fun k => (allPicks repl n st sp 1).map
      (fun t => t[k]?.getD 0))).map (fun index => indexed {} index c)) p keys hn
    (fun t ht => (hmem t ht).1) (by
      rw [List.forall₂_map_right_iff, List.forall₂_same]
      intro idx hidx
      obtain ⟨k, hk, rfl⟩ := List.mem_map.mp hidx
      have hin : ∀ i (hi : i < ((allPicks repl n st sp 1).map (fun t => t[k]?.getD 0)).length),
          0 ≤ ((allPicks repl n st sp 1).map (fun t => t[k]?.getD 0))[i] ∧
          ((allPicks repl n st sp 1).map (fun t => t[k]?.getD 0))[i] < c.len := by
        intro i hi
        simp only [List.length_map] at hi
        rw [List.getElem_map]
        obtain ⟨q1, q2⟩ := hmem _ (List.getElem_mem hi)
        have hk' : k < (allPicks repl n st sp 1)[i].length := by rw [q1]; exact List.mem_range.mp hk
        rw [List.getElem?_eq_getElem hk', Option.getD_some]
        exact q2 _ (List.getElem_mem hk')
      have hg : (indexed {} ((allPicks repl n st sp 1).map (fun t => t[k]?.getD 0)) c).Good :=
        good_indexed.mpr ⟨h, hin⟩
      refine ⟨hg, rfl, ?_⟩
      intro i hi
      rw [hg.val hi, valD_indexed hg hi]
      rw [h.val (by have := hin i hi; omega)])
  refine ⟨_, rfl, g1, ?_⟩
  rw [g2]
  have hseg : (List.range c.len).map c.valD = (ints 0 c.len).map (fun j => c.valD j.toNat) := by
    unfold ints
    rw [List.map_map]
    apply List.map_congr_left
    intro d _
    simp
  rw [hseg, choose_map, ← hpk]
  apply List.ext_getElem
  · simp
  · intro i hi hi'
    simp only [List.length_map, List.length_range] at hi
    rw [List.getElem_map, List.getElem_range, g3 i hi]
    simp only [List.getElem_map]

end Content
end Awk
