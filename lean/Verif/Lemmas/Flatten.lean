import Verif.Lemmas.ListOps
/-
`flatten` at `axis = 1`.
-/

namespace Awk
open R

/-- Two independent loops run as one. -/
theorem forN_pair {n : Nat} {f : Nat → α → R α} {g : Nat → β → R β}
    {body : Nat → α × β → R (α × β)} {a0 a : α} {b0 b : β}
    (hb : ∀ i, i < n → ∀ x y x' y', f i x = ok x' → g i y = ok y' → body i (x, y) = ok (x', y'))
    (hf : forN n f a0 = ok a) (hg : forN n g b0 = ok b) :
    forN n body (a0, b0) = ok (a, b) := by
  induction n generalizing a b with
  | zero => simp only [forN, ok.injEq] at hf hg ⊢; rw [hf, hg]
  | succ n ih =>
    rw [forN_succ] at hf hg ⊢
    obtain ⟨x, hx, hf⟩ := bind_eq_ok.mp hf
    obtain ⟨y, hy, hg⟩ := bind_eq_ok.mp hg
    rw [ih (fun i hi => hb i (by omega)) hx hy, bind_ok]
    exact hb n (by omega) x y a b hf hg

namespace Content

/-- What `offsets_and_flattened` must produce: the running totals of the lengths and the
concatenated items. -/
structure Flat (c : Content) (oc : List Int × Content) : Prop where
  offs_eq : oc.1 = offsTo c.lens c.len
  good : oc.2.Good
  len_eq : oc.2.len = sumTo c.lens c.len
  vals : ∀ i, i < c.len → oc.2.seg (sumTo c.lens i) (c.lens i) = (c.valD i).items

theorem Flat.of_eq {c d : Content} {oc : List Int × Content} (h : Flat d oc) (hl : d.len = c.len)
    (hv : ∀ i, i < c.len → d.valD i = c.valD i) : Flat c oc := by
  have hlens : ∀ i, i < c.len → d.lens i = c.lens i := fun i hi => by simp only [lens, hv i hi]
  have hsum : ∀ i, i ≤ c.len → sumTo d.lens i = sumTo c.lens i :=
    fun i hi => sumTo_congr (fun j hj => hlens j (by omega))
  refine ⟨?_, h.good, ?_, ?_⟩
  · rw [h.offs_eq, hl]; exact offsTo_congr hlens
  · rw [h.len_eq, hl, hsum _ (Nat.le_refl _)]
  · intro i hi
    rw [← hsum i (by omega), ← hlens i hi, h.vals i (by omega), hv i hi]

/-- The list classes. -/
theorem flatten_parts {c : Content} (h : c.Good) (hl : c.isListNode = true) :
    ∃ oc, (c.listParts >>= fun oc =>
      rd oc.1 ((oc.1.length - 1 : Nat) : Int) >>= fun stop =>
      oc.2.range 0 stop >>= fun content => ok (oc.1, content)) = ok oc ∧ Flat c oc := by
  obtain ⟨offs, c', h1, h2, h3⟩ := listParts_ok h hl
  have hb := h2.bound
  obtain ⟨d, g1, g2, g3, g4, _⟩ := range_good h2.good (a := 0) (b := sumTo c.lens c.len)
    (by omega) hb
  refine ⟨(offs, d), ?_, ?_⟩
  · rw [h1, bind_ok]
    simp only
    rw [h2.offs_eq, rd_offsTo_last, bind_ok]
    rw [show ((0 : Nat) : Int) = 0 from rfl] at g1
    rw [g1, bind_ok]
  · refine ⟨h2.offs_eq, g2, by simpa using g4.1, ?_⟩
    intro i hi
    have hm := sumTo_mono (f := c.lens) (show i + 1 ≤ c.len by omega)
    rw [sumTo_succ] at hm
    rw [h2.vals i hi, items_wrapList]
    apply List.map_congr_left
    intro k hk
    simp only [List.mem_range] at hk
    rw [g4.valD (by omega)]; simp

theorem sumTo_cnt {c next : Content} (h : c.Good) (ho : c.isOptionOrIndexed = true)
    (hp : Picks next c.inner c.shown) :
    (∀ i k, i < c.len → c.pick i = some k → cnt c.pickI i < next.len ∧
      next.valD (cnt c.pickI i) = c.valD i) ∧
    (∀ i, i < c.len → c.pick i = none → c.valD i = .null) ∧
    ∀ i, i ≤ c.len → sumTo c.lens i = sumTo next.lens (cnt c.pickI i) := by
  have hsome : ∀ i k, i < c.len → c.pick i = some k → cnt c.pickI i < next.len ∧
      next.valD (cnt c.pickI i) = c.valD i := by
    intro i k hi hpk
    obtain ⟨g1, g2⟩ := val_inner_pick h ho hi
    have hget : c.shown[cnt c.pickI i]? = some (k : Int) := by
      rw [shown_eq]; exact filterMap_range_get' hi (by simp [pickI, hpk])
    obtain ⟨hb', he⟩ := List.getElem?_eq_some_iff.mp hget
    refine ⟨by rw [hp.1]; exact hb', ?_⟩
    rw [hp.valD hb', he, g1, hpk]; rfl
  have hnone : ∀ i, i < c.len → c.pick i = none → c.valD i = .null := by
    intro i hi hpk
    obtain ⟨g1, g2⟩ := val_inner_pick h ho hi
    rw [g1, hpk]
  refine ⟨hsome, hnone, ?_⟩
  intro i
  induction i with
  | zero => intro _; simp [cnt]
  | succ i ih =>
    intro hi
    rw [sumTo_succ, ih (by omega), cnt_succ]
    cases hpk : c.pick i with
    | none =>
      simp [pickI, hpk, lens, hnone i (by omega) hpk, Val.items]
    | some k =>
      simp only [pickI, hpk, Option.map_some, Option.isSome_some, if_true, sumTo_succ]
      simp only [lens]
      rw [← (hsome i k (by omega) hpk).2]

theorem flatten_none2empty {c next d : Content} {offs : List Int} {numnull : Nat} (h : c.Good)
    (ho : c.isOptionOrIndexed = true) (hp : Picks next c.inner c.shown)
    (hn : c.len = c.shown.length + numnull) (hf : Flat next (offs, d)) :
    IndexedArray_flatten_none2empty (alloc (offs.length + numnull)) (outIndex c.pickI c.len)
      (outIndex c.pickI c.len).length offs offs.length = ok (offsTo c.lens c.len) ∧
    Flat c (offsTo c.lens c.len, d) := by
  obtain ⟨hsome, hnone, hsum⟩ := sumTo_cnt h ho hp
  have hnl : next.len = c.shown.length := hp.1
  have hcl : cnt c.pickI c.len = next.len := hnl.symm ▸ rfl
  have hoffs := hf.offs_eq
  simp only at hoffs
  subst hoffs
  constructor
  · unfold IndexedArray_flatten_none2empty
    rw [rd_offsTo_zero, bind_ok, outIndex_length]
    have hal : (alloc (((offsTo next.lens next.len).length : Int) + (numnull : Int))).length
        = c.len + 1 := by
      rw [show ((offsTo next.lens next.len).length : Int) + (numnull : Int)
        = ((c.len + 1 : Nat) : Int) by simp; omega, alloc_length]
    refine wr_running hal ?_
    intro i hi o hol hoi
    rw [rd_nat_ok (by simpa using hi), bind_ok, outIndex_getElem]
    have hoi' : rd o (i : Int) = ok (sumTo c.lens i : Int) := by
      rw [rd_nat_ok (by omega)]
      rw [List.getElem?_eq_getElem (by omega)] at hoi
      simpa using hoi
    cases hpk : c.pick i with
    | none =>
      simp only [pickI, hpk, Option.map_none, Option.isSome_none, Bool.false_eq_true, if_false]
      rw [if_pos (by omega), hoi', bind_ok, wr_nat_ok (by omega), sumTo_succ]
      simp [lens, hnone i hi hpk, Val.items]
    | some k =>
      obtain ⟨g1, g2⟩ := hsome i k hi hpk
      simp only [pickI, hpk, Option.map_some, Option.isSome_some, if_true]
      change (if ((cnt c.pickI i : Nat) : Int) < 0 then _ else if ((cnt c.pickI i : Nat) : Int) + 1 ≥ _ then _
        else rd (offsTo next.lens next.len) (((cnt c.pickI i : Nat) : Int) + 1) >>= _) = _
      rw [if_neg (by omega), if_neg (by simp; omega),
        show ((cnt c.pickI i : Nat) : Int) + 1 = ((cnt c.pickI i + 1 : Nat) : Int) by push_cast; rfl,
        rd_offsTo (by omega), bind_ok, rd_offsTo (by omega), bind_ok, hoi', bind_ok,
        wr_nat_ok (by omega), sumTo_diff]
      congr 2
      rw [sumTo_succ]
      simp only [lens, g2]
      push_cast; rfl
  · refine ⟨rfl, hf.good, ?_, ?_⟩
    · rw [hf.len_eq, hsum _ (Nat.le_refl _), hcl]
    · intro i hi
      rw [hsum i (by omega)]
      cases hpk : c.pick i with
      | none => simp [lens, hnone i hi hpk, Val.items]
      | some k =>
        obtain ⟨g1, g2⟩ := hsome i k hi hpk
        have := hf.vals _ g1
        rw [g2] at this
        rw [← this]
        simp only [lens, g2]

/-- The union case. -/
theorem flatten_union {p : Params} {tags index : List Int} {cs : List Content}
    {ocs : List (List Int × Content)} (hg : (union p tags index cs).Good)
    (h : List.Forall₂ Flat cs ocs) :
    ∃ oc, (UnionArray_flatten_length tags index tags.length (ocs.map Prod.fst) >>= fun total =>
      UnionArray_flatten_combine (List.replicate total.toNat (0, 0)) (alloc (tags.length + 1))
        tags index tags.length (ocs.map Prod.fst) >>= fun ob =>
      ok (ob.1, union {} (ob.2.map Prod.fst) (ob.2.map Prod.snd) (ocs.map Prod.snd))) = ok oc ∧
      Flat (union p tags index cs) oc := by
  obtain ⟨hl, hc, hp⟩ := good_union.mp hg
  have hll := h.length_eq
  set u := union p tags index cs with hu
  have hulen : u.len = tags.length := rfl
  have hget : ∀ k (hk : k < cs.length), Flat cs[k] (ocs[k]'(by omega)) :=
    fun k hk => h.get hk (by omega)
  -- the content and the position of element `i`
  have hel : ∀ i (hi : i < tags.length), ∃ (t : Nat) (j : Nat) (ht : t < cs.length),
      tags[i] = t ∧ index[i] = j ∧ j < cs[t].len ∧ u.valD i = cs[t].valD j ∧
      u.lens i = cs[t].lens j := by
    intro i hi
    obtain ⟨h1, h2, h3, h4⟩ := hp i hi
    have hv := valD_union hg hi (by omega) h2
    exact ⟨tags[i].toNat, index[i].toNat, h2, by omega, by omega, by omega, hv, by
      simp only [lens]; rw [hv]⟩
  have hrd : ∀ i (hi : i < tags.length) (t j : Nat) (ht : t < cs.length), tags[i] = t →
      index[i] = j → j < cs[t].len →
      rd tags (i : Int) = ok (t : Int) ∧ rd index (i : Int) = ok (j : Int) ∧
      rd (ocs.map Prod.fst) (t : Int) = ok (offsTo cs[t].lens cs[t].len) := by
    intro i hi t j ht h1 h2 h3
    refine ⟨by rw [rd_nat_ok hi, h1], by rw [rd_nat_ok (by omega), h2], ?_⟩
    rw [rd_nat_ok (by simp; omega)]
    simp [(hget t ht).offs_eq]
  have htotal : UnionArray_flatten_length tags index tags.length (ocs.map Prod.fst)
      = ok (sumTo u.lens tags.length : Int) := by
    unfold UnionArray_flatten_length
    suffices hs : ∀ m, m ≤ tags.length → forN m (fun i total_length =>
        rd tags (i : Int) >>= fun tag => rd index (i : Int) >>= fun idx =>
        rd (ocs.map Prod.fst) tag >>= fun offsets =>
        rd offsets idx >>= fun start => rd offsets (idx + 1) >>= fun stop =>
        ok (total_length + (stop - start))) 0 = ok (sumTo u.lens m : Int) from hs _ (Nat.le_refl _)
    intro m
    induction m with
    | zero => intro _; rfl
    | succ m ih =>
      intro hm
      rw [forN_succ, ih (by omega), bind_ok]
      obtain ⟨t, j, ht, e1, e2, e3, e4, e5⟩ := hel m (by omega)
      obtain ⟨r1, r2, r3⟩ := hrd m (by omega) t j ht e1 e2 e3
      rw [r1, bind_ok, r2, bind_ok, r3, bind_ok, rd_offsTo (by omega), bind_ok,
        show (j : Int) + 1 = ((j + 1 : Nat) : Int) by push_cast; rfl, rd_offsTo (by omega), bind_ok,
        sumTo_diff, sumTo_succ, e5]
      push_cast; rfl
  -- the pairs pushed for element `i`
  let S : Nat → List (Int × Int) := fun i =>
    (List.range (u.lens i)).map (fun (k : Nat) => (tags[i]?.getD 0,
      (sumTo (cs[(tags[i]?.getD 0).toNat]?.getD (empty {})).lens (index[i]?.getD 0).toNat : Int) + k))
  have hSl : ∀ i, (S i).length = u.lens i := fun i => by simp [S]
  have hflen : (((List.range tags.length).map S).flatten).length = sumTo u.lens tags.length := by
    rw [flatten_map_length]; exact sumTo_congr (fun i _ => hSl i)
  have hcomb : UnionArray_flatten_combine (List.replicate (sumTo u.lens tags.length) (0, 0))
      (alloc ((tags.length : Int) + 1)) tags index tags.length (ocs.map Prod.fst)
      = ok (offsTo u.lens tags.length, ((List.range tags.length).map S).flatten) := by
    have hal : (alloc ((tags.length : Int) + 1)).length = tags.length + 1 :=
      alloc_length (tags.length + 1)
    unfold UnionArray_flatten_combine
    rw [wr_ok (by omega) (by rw [hal]; omega), bind_ok]
    rw [forN_pair
      (f := fun i o => rd o (i : Int) >>= fun x => wr o ((i + 1 : Nat) : Int) (x + (u.lens i : Int)))
      (g := fun i st => forN (u.lens i)
        (fun k st => pushOpt st (((S i)[k]?))) st)
      (a := offsTo u.lens tags.length)
      (b := ((((List.range tags.length).map S).flatten).length,
        ((List.range tags.length).map S).flatten)) ?_ ?_ ?_, bind_ok]
    · intro i hi x y x' y' hx hy
      obtain ⟨t, j, ht, e1, e2, e3, e4, e5⟩ := hel i hi
      obtain ⟨r1, r2, r3⟩ := hrd i hi t j ht e1 e2 e3
      simp only
      rw [r1, bind_ok, r2, bind_ok, r3, bind_ok, rd_offsTo (by omega), bind_ok,
        show (j : Int) + 1 = ((j + 1 : Nat) : Int) by push_cast; rfl, rd_offsTo (by omega), bind_ok,
        sumTo_diff, ← e5]
      obtain ⟨z, hz, hx⟩ := bind_eq_ok.mp hx
      rw [hz, bind_ok, hx, bind_ok]
      unfold forFrom
      rw [sumTo_diff, ← e5, Int.toNat_natCast]
      have hbody : forN (u.lens i) (fun k st => pushOpt st ((S i)[k]?)) y
          = forN (u.lens i) (fun (k : Nat) st =>
              pushOpt st (some ((t : Int), (sumTo cs[t].lens j : Int) + (k : Int)))) y := by
        refine forN_congr (fun k hk s => ?_)
        congr 1
        simp only [S, List.getElem?_map, List.getElem?_range hk, Option.map_some,
          List.getElem?_eq_getElem hi, List.getElem?_eq_getElem (show i < index.length by omega),
          Option.getD_some, e1, e2, Int.toNat_natCast, List.getElem?_eq_getElem ht]
      rw [← hbody, hy, bind_ok]
    · refine forN_running (fun i => (sumTo u.lens i : Int))
        (by rw [List.length_set, hal]) ?_ ?_
      · rw [Int.toNat_zero, List.getElem?_set_self (by rw [hal]; omega)]
        rfl
      · intro i hi o hol hoi
        have hoi' : rd o (i : Int) = ok (sumTo u.lens i : Int) := by
          rw [rd_nat_ok (by omega)]
          rw [List.getElem?_eq_getElem (by omega)] at hoi
          simpa using hoi
        rw [hoi', bind_ok, wr_nat_ok (by omega), sumTo_succ]
        push_cast; rfl
    · refine forN_append0 S ?_ (by simp [hflen])
      intro i hi done rest hr
      have hS : (List.range (u.lens i)).map (fun k => (S i)[k]?.getD (0, 0)) = S i := by
        apply List.ext_getElem
        · simp [hSl]
        · intro k h1 h2
          simp [h2]
      have := forN_append (n := u.lens i)
        (body := fun k st => pushOpt st ((S i)[k]?)) (fun k => [(S i)[k]?.getD (0, 0)])
        (fun k hk done rest hr => by
          rw [show (S i)[k]? = some ((S i)[k]?.getD (0, 0)) by
            rw [List.getElem?_eq_getElem (by rw [hSl]; exact hk)]; rfl]
          rw [pushOpt_append (by simpa using hr)]
          simp) (done := done) (rest := rest) (by
          rw [flatten_map_length]; simp only [List.length_singleton, sumTo_const]
          have := hSl i; omega)
      rw [show ((List.range (u.lens i)).map (fun k => [(S i)[k]?.getD (0, 0)])).flatten = S i by
        rw [← List.flatMap_def, ← List.map_eq_flatMap]; exact hS] at this
      exact this
  refine ⟨(offsTo u.lens tags.length,
    union {} ((((List.range tags.length).map S).flatten).map Prod.fst)
      ((((List.range tags.length).map S).flatten).map Prod.snd) (ocs.map Prod.snd)), ?_, ?_⟩
  · rw [htotal, bind_ok, Int.toNat_natCast, hcomb, bind_ok]
  · have hgoodu : (union {} ((((List.range tags.length).map S).flatten).map Prod.fst)
        ((((List.range tags.length).map S).flatten).map Prod.snd) (ocs.map Prod.snd)).Good := by
      refine good_union.mpr ⟨by simp only [List.length_map, Nat.le_refl], ?_, ?_⟩
      · intro d hd
        obtain ⟨oc, hoc, rfl⟩ := List.mem_map.mp hd
        obtain ⟨e, _, he⟩ := forall₂_mem h hoc
        exact he.good
      · intro q hq
        have hq' : q < (((List.range tags.length).map S).flatten).length := by
          rw [List.length_map] at hq; exact hq
        obtain ⟨i, k, hi, hk, rfl⟩ := sumTo_locate (f := fun i => (S i).length) (n := tags.length)
          (by rw [← flatten_map_length]; exact hq')
        have hfg := flatten_map_get S hi hk
        rw [List.getElem?_eq_getElem hq', List.getElem?_eq_getElem hk] at hfg
        simp only [Option.some.injEq] at hfg
        obtain ⟨t, j, ht, e1, e2, e3, e4, e5⟩ := hel i hi
        have hk' : k < u.lens i := by rw [← hSl]; exact hk
        have hSk : (S i)[k] = ((t : Int), (sumTo cs[t].lens j : Int) + (k : Int)) := by
          simp only [S, List.getElem_map, List.getElem_range,
            List.getElem?_eq_getElem hi, List.getElem?_eq_getElem (show i < index.length by omega),
            Option.getD_some, e1, e2, Int.toNat_natCast, List.getElem?_eq_getElem ht]
        simp only [List.getElem_map, hfg, hSk, Int.toNat_natCast, List.length_map]
        have hm := sumTo_mono (f := cs[t].lens) (show j + 1 ≤ cs[t].len by omega)
        rw [sumTo_succ] at hm
        have := (hget t ht).len_eq
        exact ⟨by omega, by omega, by omega, by omega⟩
    refine ⟨rfl, hgoodu, by simp only [len, List.length_map, hflen, hulen], ?_⟩
    intro i hi
    rw [hulen] at hi
    obtain ⟨t, j, ht, e1, e2, e3, e4, e5⟩ := hel i hi
    have hvals := (hget t ht).vals j e3
    rw [e4, ← hvals, e5]
    apply List.map_congr_left
    intro k hk
    simp only [List.mem_range] at hk
    have hk' : k < (S i).length := by rw [hSl, e5]; exact hk
    have hfg := flatten_map_get S hi hk'
    rw [sumTo_congr (g := u.lens) (fun i _ => hSl i)] at hfg
    rw [List.getElem?_eq_getElem hk'] at hfg
    obtain ⟨hlt, hfg⟩ := List.getElem?_eq_some_iff.mp hfg
    have hSk : (S i)[k] = ((t : Int), (sumTo cs[t].lens j : Int) + (k : Int)) := by
      simp only [S, List.getElem_map, List.getElem_range,
        List.getElem?_eq_getElem hi, List.getElem?_eq_getElem (show i < index.length by omega),
        Option.getD_some, e1, e2, Int.toNat_natCast, List.getElem?_eq_getElem ht]
    simp only
    rw [valD_union hgoodu (by rw [List.length_map]; exact hlt) (by rw [List.length_map]; exact hlt)
      (by simp only [List.getElem_map, hfg, hSk, Int.toNat_natCast, List.length_map]; omega)]
    simp only [List.getElem_map, hfg, hSk, Int.toNat_natCast]
    congr 1

theorem listLike_child {c : Content} (h : ListLike c) (hl : c.isOptionOrIndexed = true) :
    ∀ d ∈ c.children, ListLike d := by
  cases h with
  | list h => cases c <;> simp [isListNode, isOptionOrIndexed] at h hl
  | thru _ h => exact h
  | union => simp [isOptionOrIndexed] at hl
  | empty => simp [isOptionOrIndexed] at hl

theorem flattenF_ok {f : Nat} {c : Content} (h : c.Good) (hr : c.rank ≤ f) :
    (flattenF f c).Tot (ListLike c) (Flat c) := by
  induction f generalizing c with
  | zero => exfalso; cases c <;> simp [rank] at hr
  | succ f ih =>
    have opt : ∀ c : Content, c.Good → c.inner.rank ≤ f →
        ((∃ p index d, c = indexedOption p index d) ∨ (∃ p mask vw d, c = byteMasked p mask vw d)) →
        (c.nextcarryOutindex >>= fun nco =>
          c.inner.carry false nco.2.1 >>= fun next => flattenF f next >>= fun oc =>
          IndexedArray_flatten_none2empty (alloc (oc.1.length + nco.1)) nco.2.2 nco.2.2.length
            oc.1 oc.1.length >>= fun outoffsets => ok (outoffsets, oc.2)).Tot (ListLike c) (Flat c) := by
      intro c h hr hk
      have ho : c.isOption = true := by
        rcases hk with ⟨p, index, d, rfl⟩ | ⟨p, mask, vw, d, rfl⟩ <;> rfl
      have hin : c.inner ∈ c.children := by
        rcases hk with ⟨p, index, d, rfl⟩ | ⟨p, mask, vw, d, rfl⟩ <;> simp [children, inner]
      obtain ⟨numnull, h1, hnn⟩ := nextcarryOutindex_ok h hk
      obtain ⟨next, h2, h3, h4, h5⟩ := carry_good (inner_good h) false (shown_good h ho)
      rw [h1, bind_ok]
      simp only
      rw [h2, bind_ok]
      refine ((ih h3 (by simpa using Nat.le_trans h4 (by simpa using hr))).mono (fun hh => ?_)
        (fun _ h => h)).bind (fun oc hf => ?_)
      · exact carry_closed ListLike.closed (inner_good h) (shown_good h ho) h2 0
          (listLike_child hh (isOption_imp ho) _ hin)
      · obtain ⟨e1, e2⟩ := flatten_none2empty h (isOption_imp ho) h5 hnn hf
        rw [e1, bind_ok]
        exact .ok e2
    cases c <;> simp only [flattenF, rank] at hr ⊢
    case empty p =>
      refine .ok ⟨rfl, good_empty _, rfl, fun i hi => by simp [len] at hi⟩
    case numpy p dt data =>
      refine .err (fun hh => ?_)
      cases hh with
      | list h => simp [isListNode] at h
      | thru h => simp [isOptionOrIndexed] at h
    case regular p c size zeros =>
      obtain ⟨oc, h1, h2⟩ := flatten_parts h rfl
      rw [h1]; exact .ok h2
    case listArray p starts stops c =>
      obtain ⟨oc, h1, h2⟩ := flatten_parts h rfl
      rw [h1]; exact .ok h2
    case listOffset p offsets c =>
      obtain ⟨oc, h1, h2⟩ := flatten_parts h rfl
      rw [h1]; exact .ok h2
    case indexed p index c =>
      obtain ⟨c', h1, h2, h3, h4, h5, h6⟩ := project_indexed h
      rw [h1, bind_ok]
      refine (ih h2 (by omega)).mono (fun hh => ?_) (fun _ hm => hm.of_eq h4 h5)
      exact h6.closed ListLike.closed (good_indexed.mp h).1 0
        (listLike_child hh rfl c (by simp [children]))
    case indexedOption p index c =>
      exact opt _ h (by simp only [inner]; omega) (.inl ⟨_, _, _, rfl⟩)
    case byteMasked p mask vw c =>
      exact opt _ h (by simp only [inner]; omega) (.inr ⟨_, _, _, _, rfl⟩)
    case bitMasked p mask vw length lsb c =>
      obtain ⟨bm, h1, h2, h3, h4⟩ := toByteMasked_bit h
      rw [h1, bind_ok]
      refine (ih h3 (by simp only [rank]; omega)).mono (fun hh => ?_) (fun _ hm => hm.of_eq h2 h4)
      exact .thru rfl (fun d hd => listLike_child hh rfl d (by simpa [children] using hd))
    case unmasked p c =>
      refine (ih (good_unmasked.mp h) (by omega)).mono
        (fun hh => listLike_child hh rfl c (by simp [children]))
        (fun _ hm => hm.of_eq rfl (fun i _ => rfl))
    case record p keys cs length =>
      refine .err (fun hh => ?_)
      cases hh with
      | list h => simp [isListNode] at h
      | thru h => simp [isOptionOrIndexed] at h
    case union p tags index cs =>
      obtain ⟨hl, hcs, _⟩ := good_union.mp h
      split
      · rename_i he
        refine .err (fun hh => ?_)
        cases hh with
        | list h => simp [isListNode] at h
        | thru h => simp [isOptionOrIndexed] at h
        | union h => simp at he; exact h he
      · refine (mapR_tot (P := Flat) (fun c hc => (ih (hcs c hc)
          (by have := rank_le_rankAll hc; omega)).mono (fun hh => ?_) (fun _ h => h))).bind
          (fun ocs hm => ?_)
        · cases hh with
          | list h => simp [isListNode] at h
          | thru h => simp [isOptionOrIndexed] at h
          | union _ h => exact h c hc
        · obtain ⟨oc, h1, h2⟩ := flatten_union h hm
          rw [h1]; exact .ok h2

end Content
end Awk
