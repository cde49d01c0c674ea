import Verif.Lemmas.GetitemNext
/-
`getitem_next` on the other nodes, and the whole slice.
-/

namespace Awk
open R Spec

namespace Content

section
variable {m : Nat} {rest : List SliceItem} {it : SliceItem} {mode : Mode} {adv : Adv}
  {J : Nat → Option Nat}

theorem select_null (h : it ≠ .newaxis) (adv : Option Nat) :
    select (it :: rest) adv .null = some .null := by
  rw [select_cons h]; simp [selItem]

theorem Sel.congr {n : Nat} {out : Content} {S S' : Nat → Option Val} (h : Sel n out S)
    (he : ∀ i, i < n → S' i = S i) : Sel n out S' :=
  ⟨h.good, h.len_le, fun i hi => by rw [he i hi, h.val i hi]⟩

/-- The nulls are put back. -/
theorem outIndex_sel {p : Params} {c next out : Content} {F : Val → Option Val} (h : c.Good)
    (ho : c.isOptionOrIndexed = true) (hF : F .null = some .null) (hp : Picks next c.inner c.shown)
    (hm : Sel next.len out (fun i => F (next.valD i))) :
    ∃ c', indexedSimplify true p (outIndex c.pickI c.len) out = ok c' ∧
      Sel c.len c' (fun i => F (c.valD i)) := by
  have hlen : next.len = cnt c.pickI c.len := by rw [hp.1]; rfl
  have hb : ∀ i, i < c.len → (c.pickI i).isSome → cnt c.pickI i < cnt c.pickI c.len := by
    intro i hi hs
    have h1 := cnt_mono (q := c.pickI) (show i + 1 ≤ c.len by omega)
    rw [cnt_succ, if_pos hs] at h1; omega
  obtain ⟨c', h1, h2, h3, h4⟩ := indexedSimplify_good (p := p) (index := outIndex c.pickI c.len)
    hm.good (by
      intro i hi
      rw [outIndex_getElem]
      have hle := hm.len_le
      split
      · rename_i hs
        have := hb i (by simpa using hi) hs; omega
      · omega)
  rw [outIndex_length] at h3
  refine ⟨c', h1, ⟨h2, by omega, ?_⟩⟩
  intro i hi
  obtain ⟨g1, g2⟩ := val_inner_pick h ho hi
  rw [h4 i (by simpa using hi), outIndex_getElem, g1]
  cases hpk : c.pick i with
  | none => simp [pickI, hpk, hF]
  | some k =>
    have hs : (c.pickI i).isSome := by simp [pickI, hpk]
    have hlt := hb i hi hs
    simp only [hs, if_true]
    rw [if_neg (by omega), show ((cnt c.pickI i : Nat) : Int).toNat = cnt c.pickI i by omega,
      ← hm.val _ (by omega)]
    congr 1
    have hget : c.shown[cnt c.pickI i]? = some (k : Int) := by
      rw [shown_eq]; exact filterMap_range_get' hi (by simp [pickI, hpk])
    obtain ⟨hb', he⟩ := List.getElem?_eq_some_iff.mp hget
    rw [hp.valD hb', he]; rfl

theorem pick_shown {c next : Content} (h : c.Good) (ho : c.isOption = true)
    (hp : Picks next c.inner c.shown) {t : Nat} (ht : t < next.len) :
    ∃ i, i < c.len ∧ next.valD t = c.valD i := by
  rw [hp.1] at ht
  rw [hp.valD ht]
  have hmem : c.shown[t] ∈ (List.range c.len).filterMap c.pickI := by
    rw [← shown_eq]; exact List.getElem_mem ht
  obtain ⟨i, hi, he⟩ := List.mem_filterMap.mp hmem
  rw [List.mem_range] at hi
  obtain ⟨g1, g2⟩ := val_inner_pick h (isOption_imp ho) hi
  refine ⟨i, hi, ?_⟩
  rw [g1]
  simp only [pickI, Option.map_eq_some_iff] at he
  obtain ⟨k, hk, he⟩ := he
  rw [hk, ← he]; rfl

theorem recordOfContents_eq {p : Params} {keys : Option (List String)} {z : Nat}
    {cs : List Content} (hne : cs ≠ []) :
    ∃ L, recordOfContents p keys z cs = record p keys cs L ∧ (∀ d ∈ cs, L ≤ d.len) ∧
      ∀ n, (∀ d ∈ cs, n ≤ d.len) → n ≤ L := by
  have hfold : ∀ (ds : List Content) (x : Nat),
      (∀ d ∈ ds, ds.foldl (fun m d => min m d.len) x ≤ d.len) ∧
      ds.foldl (fun m d => min m d.len) x ≤ x ∧
      ∀ n, (n ≤ x → (∀ d ∈ ds, n ≤ d.len) → n ≤ ds.foldl (fun m d => min m d.len) x) := by
    intro ds
    induction ds with
    | nil => intro x; simp
    | cons d ds ih =>
      intro x
      obtain ⟨i1, i2, i3⟩ := ih (min x d.len)
      simp only [List.foldl_cons]
      refine ⟨?_, by omega, fun n hx hd => ?_⟩
      · intro e he
        rcases List.mem_cons.mp he with rfl | he
        · omega
        · exact i1 e he
      · refine i3 n ?_ (fun e he => hd e (List.mem_cons_of_mem _ he))
        have := hd d List.mem_cons_self
        omega
  cases cs with
  | nil => exact absurd rfl hne
  | cons d ds =>
    obtain ⟨i1, i2, i3⟩ := hfold ds d.len
    refine ⟨_, rfl, ?_, fun n hn => i3 n (hn d List.mem_cons_self)
      (fun e he => hn e (List.mem_cons_of_mem _ he))⟩
    intro e he
    rcases List.mem_cons.mp he with rfl | he
    · exact i2
    · exact i1 e he

/-- What one item does to a node. -/
def StepOk (m : Nat) (it : SliceItem) (rest : List SliceItem) (f : Nat) : Prop :=
  ∀ (mode : Mode) (adv : Adv) (J : Nat → Option Nat) (c : Content), c.Good →
    c.rank + c.hgt ≤ f → Fits false m mode (it :: rest) c → AdvOk m mode adv J c.len →
    (stepF it f (next rest) adv c).Tot
      (Fits true m mode (it :: rest) c ∧
        ∀ i, i < c.len → (select (it :: rest) (J i) (c.valD i)).isSome)
      (fun out => Sel c.len out (fun i => select (it :: rest) (J i) (c.valD i)))

theorem step_record {f : Nat} (ih : StepOk m it rest f) {p : Params}
    {keys : Option (List String)} {cs : List Content} {length : Nat}
    (hg : (record p keys cs length).Good)
    (hfuel : (record p keys cs length).rank + (record p keys cs length).hgt ≤ f + 1)
    (hf : Fits false m mode (it :: rest) (record p keys cs length))
    (hadv : AdvOk m mode adv J length) :
    (stepF it (f + 1) (next rest) adv (record p keys cs length)).Tot
      (Fits true m mode (it :: rest) (record p keys cs length) ∧
        ∀ i, i < length → (select (it :: rest) (J i) ((record p keys cs length).valD i)).isSome)
      (fun out => Sel length out
        (fun i => select (it :: rest) (J i) ((record p keys cs length).valD i))) := by
  obtain ⟨rfl, hit, hne, htrim, _, hfc⟩ := hf.inv_record
  obtain ⟨hlen, hcs⟩ := good_record.mp hg
  have hval : ∀ i, i < length → ∀ j, select [it] j ((record p keys cs length).valD i)
      = selItem it (select []) j (mkRecord keys (cs.map (fun c => c.valD i))) := by
    intro i hi j
    rw [select_cons hit, valD_record hg hi]
  -- the positions used for the fields
  obtain ⟨J', hJ', hJadv⟩ : ∃ J' : Nat → Option Nat, (∀ i, i < length → J' i = J i) ∧
      ∀ d ∈ cs, AdvOk m mode adv J' d.len := by
    by_cases hm : mode = .none
    · subst hm
      obtain ⟨rfl, hJ⟩ := hadv
      exact ⟨fun _ => none, fun i hi => (hJ i hi).symm, fun d _ => ⟨rfl, fun _ _ => rfl⟩⟩
    · exact ⟨J, fun _ _ => rfl, fun d hd => by rw [htrim (.inl hm) d hd]; exact hadv⟩
  simp only [stepF]
  have hfields : ∀ d ∈ cs, (stepF it f (fun _ c => ok c) adv d).Tot
      (Fits true m mode [it] (record p keys cs length) ∧
        ∀ i, i < length → (select [it] (J i) ((record p keys cs length).valD i)).isSome)
      (fun d' => Sel d.len d' (fun i => select [it] (J' i) (d.valD i))) := by
    intro d hd
    have hr := child_rank (c := record p keys cs length) (d := d) (by simpa [children] using hd)
    have hh : d.hgt ≤ hgtAll cs := hgtAll_le.mp (Nat.le_refl _) d hd
    refine (ih mode adv J' d (hcs d hd) (by simp only [hgt] at hfuel; omega) (hfc d hd)
      (hJadv d hd)).mono ?_ (fun _ h => h)
    rintro ⟨h1, h2⟩
    obtain ⟨_, _, _, g1, gk, g2⟩ := h1.inv_record
    refine ⟨g2 d hd, ?_⟩
    have hdl := g1 (.inr rfl) d hd
    rw [hdl]
    intro i hi
    have := h2 i hi
    rw [hval i hi] at this
    rw [hJ' i hi, select_cons hit]
    -- every field is selected
    cases keys with
    | none =>
      simp only [mkRecord, selItem, Option.isSome_map, selItems_eq] at this
      exact mapM_isSome this _ (List.mem_map.mpr ⟨d, hd, rfl⟩)
    | some ks =>
      have hks : (selFields it (select []) (J i) (ks.zip (cs.map (fun c => c.valD i)))).isSome := by
        simpa only [mkRecord, selItem, Option.isSome_map] using this
      exact selFields_isSome (by rw [List.length_map, gk rfl ks rfl]) hks _
        (List.mem_map.mpr ⟨d, hd, rfl⟩)
  refine (mapR_tot hfields).bind (fun cs' hcs' => .ok ?_)
  have hcl : cs'.length = cs.length := hcs'.length_eq.symm
  have hne' : cs' ≠ [] := by
    intro he; rw [he] at hcl; exact hne (List.length_eq_zero_iff.mp hcl.symm)
  obtain ⟨L, e1, e2, e3⟩ := recordOfContents_eq
    (p := if preservesType adv it then p else {}) (keys := keys) (z := 0) hne'
  rw [e1]
  have hmem : ∀ d' ∈ cs', ∃ d ∈ cs, Sel d.len d' (fun i => select [it] (J' i) (d.valD i)) :=
    fun d' hd' => forall₂_mem hcs' hd'
  have hLen : length ≤ L := e3 length (fun d' hd' => by
    obtain ⟨d, hd, hs⟩ := hmem d' hd'
    have := hlen d hd
    have := hs.len_le
    omega)
  have hgood : (record (if preservesType adv it then p else {}) keys cs' L).Good :=
    good_record.mpr ⟨e2, fun d' hd' => by obtain ⟨d, hd, hs⟩ := hmem d' hd'; exact hs.good⟩
  refine ⟨hgood, hLen, ?_⟩
  intro i hi
  rw [hval i hi, valD_record hgood (by omega)]
  refine selItem_mkRecord (mapM_of_get (by simp [hcl]) ?_)
  intro j hj
  rw [List.length_map] at hj
  rw [List.getElem_map, List.getElem_map]
  have hs := hcs'.get hj (by omega)
  have := hs.val i (by have := hlen _ (List.getElem_mem hj); simp only [List.get_eq_getElem]; omega)
  rw [hJ' i hi, select_cons hit] at this
  simpa only [List.get_eq_getElem] using this

theorem stepF_newaxis {c : Content} (hc : ∀ p k cs n, c ≠ record p k cs n) (f : Nat) (k : Cont)
    (adv : Adv) : stepF .newaxis (f + 1) k adv c = k adv c >>= fun next => ok (newaxisWrap next) := by
  cases c <;> first | exact absurd rfl (hc _ _ _ _) | rfl

theorem step_newaxis {f : Nat} (hk : NextOk m rest) {c : Content} (hg : c.Good)
    (hf : Fits false m mode (.newaxis :: rest) c) (hadv : AdvOk m mode adv J c.len) :
    (stepF .newaxis (f + 1) (next rest) adv c).Tot
      (Fits true m mode (.newaxis :: rest) c ∧
        ∀ i, i < c.len → (select (.newaxis :: rest) (J i) (c.valD i)).isSome)
      (fun out => Sel c.len out (fun i => select (.newaxis :: rest) (J i) (c.valD i))) := by
  obtain ⟨h1, h2⟩ := hf.inv_newaxis
  rw [stepF_newaxis h1]
  refine ((hk mode adv J c hg h2 hadv).mono ?_ (fun _ h => h)).bind (fun out ho => .ok ?_)
  · rintro ⟨g1, g2⟩
    refine ⟨g1.inv_newaxis.2, fun i hi => ?_⟩
    have := g2 i hi
    simpa only [select, Option.isSome_map] using this
  · have hl : c.len ≤ (newaxisWrap out).len := by
      simp only [newaxisWrap, len]
      rw [if_pos (by omega), Nat.div_one]
      exact ho.len_le
    refine ⟨good_regular.mpr ho.good, hl, fun i hi => ?_⟩
    simp only [select]
    rw [ho.val i hi]
    unfold newaxisWrap
    rw [valD_regular ho.good (by unfold newaxisWrap at hl; omega), wrapList_default]
    simp [seg]

theorem step_regular {f : Nat} (hk : NextOk m rest) (hit : it ≠ .newaxis) {p : Params} {c : Content}
    {size zeros : Nat} (hg : (regular p c size zeros).Good)
    (hf : Fits false m mode (it :: rest) (regular p c size zeros))
    (hadv : AdvOk m mode adv J (regular p c size zeros).len) :
    (stepF it (f + 1) (next rest) adv (regular p c size zeros)).Tot
      (Fits true m mode (it :: rest) (regular p c size zeros) ∧
        ∀ i, i < (regular p c size zeros).len →
          (select (it :: rest) (J i) ((regular p c size zeros).valD i)).isSome)
      (fun out => Sel (regular p c size zeros).len out
        (fun i => select (it :: rest) (J i) ((regular p c size zeros).valD i))) := by
  have hc : c.Good := good_regular.mp hg
  obtain ⟨mode', h1, h2, _, h4⟩ := hf.inv_list hit rfl
  simp only [stepF, if_neg hit]
  refine regularNext_tot ⟨hc, fun i hi => ?_, fun i hi _ => ?_⟩ hk hadv hit h1 (.inl h2)
    (h4 c (by simp [children])) ?_ ?_ (fun hh => hh.2)
  · rw [valD_regular hc hi]; rfl
  · have := regular_bound hi
    omega
  · rintro ⟨g1, _⟩
    obtain ⟨_, _, _, g3, _⟩ := g1.inv_list hit rfl
    exact g3 rfl _ _ _ _ rfl
  · rintro ⟨g1, _⟩
    obtain ⟨mode'', _, g2, _, g4⟩ := g1.inv_list hit rfl
    rw [h2, Option.some.injEq] at g2
    subst g2
    exact g4 c (by simp [children])

theorem lists_of_pairs {me c : Content} {p : Params} {starts stops : List Int} {n : Nat}
    (hc : c.Good) (hn : n ≤ starts.length) (hn' : n ≤ stops.length)
    (hp : ∀ i (h : i < n), GoodPair starts[i] stops[i] c.len)
    (hv : ∀ i (h : i < n), me.valD i
      = wrapList p (c.seg starts[i].toNat (stops[i] - starts[i]).toNat)) :
    Lists me c p n (fun i => starts[i]?.getD 0) (pairLen starts stops) := by
  have e1 : ∀ i (h : i < n), starts[i]?.getD 0 = starts[i] := by
    intro i hi; simp [show i < starts.length by omega]
  have e2 : ∀ i (h : i < n), pairLen starts stops i = (stops[i] - starts[i]).toNat := by
    intro i hi; simp [pairLen, show i < starts.length by omega, show i < stops.length by omega]
  refine ⟨hc, fun i hi => ?_, fun i hi h0 => ?_⟩
  · rw [hv i hi, e2 i hi]; simp only [e1 i hi]
  · simp only [e1 i hi]
    rw [e2 i hi] at h0 ⊢
    rcases hp i hi with h | h <;> omega

theorem step_list {f : Nat} (hk : NextOk m rest) (hit : it ≠ .newaxis) {me c : Content} {p : Params}
    {starts stops : List Int} {n : Nat} (hme : me.isListNode = true)
    (hch : me.children = [c]) (hlen : me.len = n)
    (hstep : stepF it (f + 1) (next rest) adv me = listNext it (next rest) adv p starts stops n c)
    (hc : c.Good) (hn : n ≤ starts.length) (hn' : n ≤ stops.length)
    (hp : ∀ i (h : i < n), GoodPair starts[i] stops[i] c.len)
    (hv : ∀ i (h : i < n), me.valD i
      = wrapList p (c.seg starts[i].toNat (stops[i] - starts[i]).toNat))
    (hf : Fits false m mode (it :: rest) me) (hadv : AdvOk m mode adv J me.len) :
    (stepF it (f + 1) (next rest) adv me).Tot
      (Fits true m mode (it :: rest) me ∧
        ∀ i, i < me.len → (select (it :: rest) (J i) (me.valD i)).isSome)
      (fun out => Sel me.len out (fun i => select (it :: rest) (J i) (me.valD i))) := by
  obtain ⟨mode', h1, h2, _, h4⟩ := hf.inv_list hit hme
  rw [hstep]
  rw [hlen] at hadv ⊢
  refine listNext_tot (lists_of_pairs hc hn hn' hp hv) hn hn' hp hk hadv hit h1 h2
    (h4 c (by simp [hch])) ?_ (fun hh => hh.2)
  rintro ⟨g1, _⟩
  obtain ⟨mode'', _, g2, _, g4⟩ := g1.inv_list hit hme
  rw [h2, Option.some.injEq] at g2
  subst g2
  exact g4 c (by simp [hch])

theorem step_option {f : Nat} (ih : StepOk m it rest f) (hit : it ≠ .newaxis) {c : Content}
    {p : Params} (hg : c.Good)
    (hk : (∃ p index d, c = indexedOption p index d) ∨ (∃ p mask vw d, c = byteMasked p mask vw d))
    (hstep : stepF it (f + 1) (next rest) adv c = (c.nextcarryOutindex >>= fun nco =>
          c.inner.carry true nco.2.1 >>= fun nc => stepF it f (next rest) adv nc >>= fun out =>
          indexedSimplify true p nco.2.2 out))
    (hfuel : c.rank + c.hgt ≤ f + 1)
    (hf : Fits false m mode (it :: rest) c) (hadv : AdvOk m mode adv J c.len) :
    (stepF it (f + 1) (next rest) adv c).Tot
      (Fits true m mode (it :: rest) c ∧
        ∀ i, i < c.len → (select (it :: rest) (J i) (c.valD i)).isSome)
      (fun out => Sel c.len out (fun i => select (it :: rest) (J i) (c.valD i))) := by
  have ho : c.isOption = true := by
    rcases hk with ⟨p, index, d, rfl⟩ | ⟨p, mask, vw, d, rfl⟩ <;> rfl
  have hmiss : canMiss c = true := by
    rcases hk with ⟨p, index, d, rfl⟩ | ⟨p, mask, vw, d, rfl⟩ <;> rfl
  have hch : c.children = [c.inner] := by
    rcases hk with ⟨p, index, d, rfl⟩ | ⟨p, mask, vw, d, rfl⟩ <;> rfl
  have hhgt : c.hgt = c.inner.hgt + 1 := by
    rcases hk with ⟨p, index, d, rfl⟩ | ⟨p, mask, vw, d, rfl⟩ <;> rfl
  obtain ⟨rfl, hfc⟩ := hf.inv_option hit hmiss
  obtain ⟨rfl, hJ⟩ := hadv
  obtain ⟨numnull, h1, _⟩ := nextcarryOutindex_ok hg hk
  obtain ⟨nc, h2, h3, h4, h5, h6⟩ := carry_fits (inner_good hg) true (shown_good hg ho)
  have h7 := carry_hgt (inner_good hg) (shown_good hg ho) h2
  have hrank := inner_rank (isOption_imp ho)
  rw [hstep, h1, bind_ok]
  simp only
  rw [h2, bind_ok]
  simp only [Bool.toNat_true] at h4
  refine ((ih .none none (fun _ => none) nc h3 (by omega)
    (h6 (hfc _ (by simp [hch]))) ⟨rfl, fun _ _ => rfl⟩).mono ?_ (fun _ h => h)).bind
    (fun out hm => ?_)
  · rintro ⟨g1, g2⟩
    refine ⟨h6 ((g1.inv_option hit hmiss).2 _ (by simp [hch])), ?_⟩
    intro t ht
    obtain ⟨i, hi, he⟩ := pick_shown hg ho h5 ht
    have := g2 i hi
    rw [he]
    rwa [hJ i hi] at this
  · obtain ⟨c', e1, e2⟩ := outIndex_sel (p := p) (F := select (it :: rest) none) hg (isOption_imp ho)
      (select_null hit none) h5 hm
    rw [e1]
    exact .ok (e2.congr (fun i hi => by rw [hJ i hi]))

theorem step_ok (hk : NextOk m rest) (f : Nat) : StepOk m it rest f := by
  induction f with
  | zero =>
    intro mode adv J c hg hfuel
    have : 0 < c.rank := by cases c <;> simp [rank]
    omega
  | succ f ih =>
    intro mode adv J c hg hfuel hf hadv
    by_cases hit : it = .newaxis
    · subst hit
      exact step_newaxis hk hg hf hadv
    cases c with
    | empty p => exact (hf.inv_leaf hit rfl (by simp)).elim
    | numpy p dt data => exact (hf.inv_leaf hit rfl (by simp)).elim
    | union p tags index cs => exact (hf.inv_union hit).elim
    | regular p c size zeros => exact step_regular hk hit hg hf hadv
    | listArray p starts stops c =>
      obtain ⟨hl, hc, hp⟩ := good_listArray.mp hg
      refine step_list hk hit (p := p) (starts := starts) (stops := stops) (n := starts.length)
        rfl rfl rfl ?_ hc (Nat.le_refl _) hl hp
        (fun i hi => valD_listArray hg hi (by omega)) hf hadv
      simp only [stepF, if_neg hit]
      rw [if_neg (by omega)]
    | listOffset p offsets c =>
      obtain ⟨hl, hc, hp⟩ := good_listOffset.mp hg
      have hs : ∀ i (h : i < offsets.length - 1), (makeStarts offsets)[i]'(by
          simp [makeStarts]; omega) = offsets[i] := by
        intro i hi; simp [makeStarts]
      have ht : ∀ i (h : i < offsets.length - 1), (makeStops offsets)[i]'(by
          simp [makeStops]; omega) = offsets[i + 1] := by
        intro i hi; simp [makeStops]
      refine step_list hk hit (p := p) (starts := makeStarts offsets) (stops := makeStops offsets)
        (n := offsets.length - 1) rfl rfl rfl ?_ hc (by simp [makeStarts]) (by simp [makeStops])
        (fun i hi => by rw [hs i hi, ht i hi]; exact hp i (by omega))
        (fun i hi => by rw [hs i hi, ht i hi]; exact valD_listOffset hg (by omega)) hf hadv
      simp only [stepF, if_neg hit]
    | indexed p index d =>
      obtain ⟨hd, _⟩ := good_indexed.mp hg
      obtain ⟨c', h1, h2, h3, h4, h5, h6⟩ := project_indexed hg
      have hfd := hf.inv_index hit rfl d (by simp [children])
      have h7 : c'.hgt ≤ d.hgt := Gathered.closed hgt_closed hd h6 _ (Nat.le_refl _)
      simp only [stepF, if_neg hit]
      rw [h1, bind_ok]
      simp only [rank, hgt] at hfuel
      refine (ih mode adv J c' h2 (by omega)
        (Gathered.closed (Fits.closed false m) hd h6 (mode, it :: rest) hfd)
        (by rw [h4]; exact hadv)).mono ?_ ?_
      · rintro ⟨g1, g2⟩
        refine ⟨Gathered.closed (Fits.closed true m) hd h6 (mode, it :: rest)
          (g1.inv_index hit rfl d (by simp [children])), ?_⟩
        rw [h4]
        intro i hi
        rw [h5 i hi]; exact g2 i hi
      · intro out ho
        rw [h4] at ho
        exact ho.congr (fun i hi => by simp only [h5 i hi])
    | indexedOption p index d =>
      exact step_option ih hit (p := p) hg (.inl ⟨_, _, _, rfl⟩)
        (by simp only [stepF, if_neg hit]; rfl) hfuel hf hadv
    | byteMasked p mask vw d =>
      exact step_option ih hit (p := p) hg (.inr ⟨_, _, _, _, rfl⟩)
        (by simp only [stepF, if_neg hit]; rfl) hfuel hf hadv
    | bitMasked p mask vw length lsb d =>
      obtain ⟨rfl, hfc⟩ := hf.inv_option hit rfl
      obtain ⟨bm, h1, h2, h3, h4⟩ := toByteMasked_bit hg
      simp only [stepF, if_neg hit]
      rw [h1, bind_ok]
      simp only [rank, hgt] at hfuel
      refine (ih .none adv J _ h3 (by simp only [rank, hgt]; omega)
        (.option hit rfl (by simpa [children] using hfc)) (by simp only [len, h2]; exact hadv)).mono
        ?_ ?_
      · rintro ⟨g1, g2⟩
        refine ⟨.option hit rfl (by simpa [children] using (g1.inv_option hit rfl).2), ?_⟩
        simp only [len, h2]
        intro i hi
        rw [h4 i hi]; exact g2 i hi
      · intro out ho
        simp only [len, h2] at ho
        exact ho.congr (fun i hi => by rw [h4 i hi])
    | unmasked p d =>
      have hd : d.Good := good_unmasked.mp hg
      have hfd := hf.inv_index hit rfl d (by simp [children])
      simp only [stepF, if_neg hit]
      simp only [rank, hgt] at hfuel
      refine ((ih mode adv J d hd (by omega) hfd hadv).mono ?_ (fun _ h => h)).bind
        (fun out ho => ?_)
      · rintro ⟨g1, g2⟩
        exact ⟨g1.inv_index hit rfl d (by simp [children]), g2⟩
      · simp only [simplifyOption]
        split
        · exact .ok ⟨ho.good, ho.len_le, ho.val⟩
        · exact .ok ⟨good_unmasked.mpr ho.good, ho.len_le, ho.val⟩
    | record p keys cs length => exact step_record ih hg hfuel hf hadv

theorem next_ok (items : List SliceItem) : NextOk m items := by
  induction items with
  | nil =>
    intro mode adv J c hg _ _
    exact .ok ⟨hg, Nat.le_refl _, fun i _ => rfl⟩
  | cons it rest ih =>
    intro mode adv J c hg hf hadv
    have := hgt_le_rank c
    exact step_ok ih (2 * c.rank) mode adv J c hg (by omega) hf hadv

end
end Content
end Awk
