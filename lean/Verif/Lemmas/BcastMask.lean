import Verif.Lemmas.BcastZip
import Verif.Lemmas.BroadcastComplete
/-
`ak.mask` and element-wise functions.
-/

namespace Awk
open R Spec

namespace Content

/-- What an operation that broadcasts like NumPy at the outermost level returns. -/
theorem bcastAndApply_regular {a : BcastArgs} (hj : a.jagged = false)
    {get : Nat → List Content → R (Option (List Content))}
    {done : Nat → List Val → List Val → Prop} {go : Nat → List Val → Prop}
    {cs : List Content} (hget : GetOk (fun _ => AllNodes BcastNode) get done go a.records cs.length 1)
    {fuel : Nat} (hne : cs ≠ []) (hb : ∀ c ∈ cs, Bin c) (hstay : get 0 (cs.map pack) = ok none)
    {it : Item} (h : (bcastAndApply a get fuel cs >>= onlyOutput) = ok it) :
    ∃ out ys n, it = .array out ∧ out.toList = ok ys ∧ ys.length = n ∧
      n = (cs.map len).foldl max 0 ∧ (∀ c ∈ cs, c.len = n ∨ (c.len = 1 ∧ 1 < n)) ∧
      ∀ i, i < n → Applies done go 1 1 (cs.map (fun c => c.valD (if c.len = 1 then 0 else i)))
        [ys[i]?.getD .null] := by
  obtain ⟨c0, hc0⟩ := List.exists_mem_of_ne_nil cs hne
  cases fuel with
  | zero =>
    exfalso
    simp [bcastAndApply, bcastWith] at h
  | succ f =>
    unfold bcastAndApply at h
    rw [show (fun c : Content => regular {} c c.len 1) = pack from rfl] at h
    have hid : mapR (regularToJagged a.jagged) (cs.map pack) = ok (cs.map pack) := by
      rw [hj, mapR_forall₂]
      refine List.forall₂_same.mpr (fun c hc => ?_)
      obtain ⟨d, _, rfl⟩ := List.mem_map.mp hc
      rfl
    have hr : (if a.right then rightBroadcast (cs.map pack) else cs.map pack) = cs.map pack := by
      split
      · exact rightBroadcast_pack hb
      · rfl
    have hlens : ((cs.map pack).any (fun c => c.len != (((cs.map pack).map len).headD 0))) = false := by
      obtain ⟨c1, cs', rfl⟩ := List.exists_cons_of_ne_nil hne
      simp [pack_len]
    have hsw : bcastSwitch a (bcastWith a get f) 0 (cs.map pack)
        = regularStep (bcastWith a get f 1) (cs.map pack) := by
      obtain ⟨c1, cs', rfl⟩ := List.exists_cons_of_ne_nil hne
      unfold bcastSwitch
      rw [if_neg, if_neg, if_neg, if_neg, if_pos, if_pos]
      · simp [pack, isJagged]
      · simp [pack, isListNode]
      · simp [pack, isOption]
      · simp [pack, isUnion]
      · simp [pack]
      · simp [pack]
    rw [bcastWith] at h
    simp only [hid, bind_ok, hr, hlens, Bool.false_eq_true, if_false, hstay, hsw] at h
    unfold regularStep at h
    have hN : ((cs.map pack).map regularSize).foldl max 0 = (cs.map len).foldl max 0 := by
      rw [List.map_map]; rfl
    simp only [hN] at h
    generalize hNN : (cs.map len).foldl max 0 = N at h ⊢
    simp only [bind_eq_ok] at h
    obtain ⟨items, ⟨mid, ⟨cs', h1, outs', h2, h3⟩, h4⟩, h5⟩ := h
    simp only [ok.injEq] at h3; subst h3
    rw [mapR_forall₂, List.forall₂_map_left_iff] at h1
    have hstep := fa2_imp_mem h1 (fun c hc c' h => bcastRegular_pack BcastNode.fam (hb c hc) h)
    obtain ⟨m, hbo⟩ := bcastWith_sound (hj ▸ BcastNode.fam) (fun _ => hj) (hstep.length_eq ▸ hget) f 1 (f + 1)
      cs' outs' rfl (by
        rintro rfl
        exact hne (List.length_eq_zero_iff.mp (by simpa using hstep.length_eq)))
      (fun c hc => ⟨(forall₂_mem hstep hc).choose_spec.2.2.1.good,
        (forall₂_mem hstep hc).choose_spec.2.2.1.nodes⟩) (.inl (by omega)) h2
    have hm : m = N := by
      obtain ⟨c', hc', h⟩ := fa2_left hstep hc0
      rw [← hbo.len c' hc']; exact h.2.2.1
    subst hm
    obtain ⟨o, rfl⟩ : ∃ o, outs' = [o] := by
      match outs', hbo.length with
      | [o], _ => exact ⟨o, rfl⟩
    have hz : (cs'.map len).foldl max 0 = m := by
      refine foldl_max_const (fun x hx => ?_) ?_
      · obtain ⟨c, hc, rfl⟩ := List.mem_map.mp hx
        exact hbo.len c hc
      · intro he
        have := hstep.length_eq
        simp only [List.map_eq_nil_iff] at he
        subst he
        simp at this
        exact hne this
    rw [hz] at h4
    simp only [List.map_cons, List.map_nil, mapR, bind_eq_ok, ok.injEq] at h4
    obtain ⟨it', h6, _, rfl, rfl⟩ := h4
    simp only [onlyOutput, ok.injEq] at h5; subst h5
    obtain ⟨hog, hol⟩ := hbo.good o (by simp)
    obtain ⟨d, d1, d2, _, d4, _⟩ := range_good hog (a := 0) (b := m) (by omega) (by omega)
    have hit : it' = .array d := by
      unfold bcastItem at h6
      by_cases hm0 : m = 0
      · subst hm0
        have : (regular {} o 0 0).len = 0 := rfl
        rw [if_pos this] at h6
        simp only at h6
        rw [show (o.range 0 0) = ok d from d1] at h6
        simpa using h6.symm
      · have hl : (regular {} o m m).len = 1 := by
          simp only [Content.len]
          rw [if_pos hm0, hol, Nat.div_self (by omega)]
        rw [if_neg (by omega)] at h6
        unfold getitemAt at h6
        simp only [Int.lt_irrefl, if_false] at h6
        rw [if_neg (by omega)] at h6
        simp only [getitemAtNowrap, show (0 : Int).toNat = 0 from rfl, Nat.cast_zero, Int.zero_mul,
          Int.zero_add, Int.one_mul] at h6
        rw [show (o.range 0 m) = ok d from d1] at h6
        simpa using h6.symm
    have hdl : d.len = m := by simpa using d4.1
    refine ⟨d, (List.range d.len).map d.valD, m, hit, d2.toList, by simp [hdl], rfl,
      fun c hc => (fa2_left hstep hc).choose_spec.2.1, fun i hi => ?_⟩
    have e1 : cs'.map (fun c => c.valD i) = cs.map (fun c => c.valD (if c.len = 1 then 0 else i)) := by
      clear h1 h2 hbo hz hN hne hid hr hlens hsw hstay hget hNN hc0
      induction hstep with
      | nil => rfl
      | cons h _ ih =>
        rw [List.map_cons, List.map_cons, h.2.2.2 i hi, ih (fun c hc => hb c (by simp [hc]))]
    rw [← e1, List.getElem?_eq_getElem (by simpa [hdl] using hi)]
    have := hbo.rows i hi
    simp only [List.map_cons, List.map_nil] at this
    simpa [d4.valD (show i < m - 0 by omega)] using this

/-! ### `mask` -/

theorem maskGet_ok (validWhen : Bool) :
    GetOk (fun _ => AllNodes BcastNode) (maskGet validWhen)
      (fun _ vs outs => ∃ v b, vs = [v, .atom b] ∧
        outs = [if decide (b = .bool true) = validWhen then v else .null])
      (fun _ vs => ∃ v m, vs = [v, m] ∧ (v = .null ∨ ∀ a, m ≠ .atom a)) true 2 1 where
  stop depth b cs outs n hl hg h := by
    unfold maskGet at h
    split at h
    · rename_i c p dt data
      split at h
      · cases h
      rw [bind_eq_ok] at h
      obtain ⟨o, ho, h⟩ := h
      simp only [ok.injEq, Option.some.injEq] at h; subst h
      obtain ⟨hc, hcl⟩ := hg c (by simp)
      have hdl : data.length = n := by simpa [len] using (hg (numpy p dt data) (by simp)).2
      have hgm : (byteMasked {} (data.map (fun a => if a = .bool true then (1 : Int) else 0))
          validWhen c).Good := good_byteMasked.mpr ⟨by simp; omega, hc.good⟩
      obtain ⟨c', h1, h2, h3, h4⟩ := simplifyOption_good hgm
      rw [h1] at ho
      simp only [ok.injEq] at ho; subst ho
      have hlen : c'.len = n := by rw [h3]; simp [len, hdl]
      refine ⟨rfl, fun c hc => (hg c hc).2, by simpa using ⟨h2, hlen⟩, fun i hi => ?_⟩
      refine ⟨c.valD i, data[i], ?_, ?_⟩
      · simp [valD_numpy (show i < data.length by omega)]
      · simp only [List.map_cons, List.map_nil, List.cons.injEq, and_true]
        rw [h4 i (by simp [len]; omega), valD_byteMasked hgm (by simp; omega)]
        simp only [maskOk, List.getElem?_map, List.getElem?_eq_getElem (show i < data.length by omega),
          Option.map_some, Option.getD_some]
        by_cases ha : data[i] = .bool true <;> simp [ha]
    · cases h
  null depth cs vs h hl hn := by
    obtain ⟨v, m, rfl⟩ : ∃ v m, vs = [v, m] := by
      match vs, hl with
      | [v, m], _ => exact ⟨v, m, rfl⟩
    refine ⟨v, m, rfl, ?_⟩
    simp only [List.mem_cons, List.not_mem_nil, or_false] at hn
    rcases hn with h | h
    · exact .inl h.symm
    · subst h; exact .inr (by simp)
  go depth b cs n hl hg h hk hrec i hi := by
    clear hrec
    obtain ⟨c, m, rfl⟩ : ∃ c m, cs = [c, m] := by
      match cs, hl with
      | [v, m], _ => exact ⟨v, m, rfl⟩
    refine ⟨_, _, rfl, .inr ?_⟩
    obtain ⟨hm, hml⟩ := hg m (by simp)
    rcases hk m (by simp) with hj | hf
    · obtain ⟨xs, hx⟩ := jagged_val BcastNode.fam (b := b) hm hj (i := i) (by omega)
      simp only [hx]; simp
    · intro a ha
      cases m <;> simp only [isFlat, Bool.false_eq_true] at hf
      case numpy p dt data =>
        unfold maskGet at h
        simp only at h
        split at h
        · cases h
        · rw [bind_eq_ok] at h
          obtain ⟨_, _, h⟩ := h
          cases h
      case record p keys ds length =>
        simp only [len] at hml
        simp only at ha
        rw [valD_record hm.good (by omega)] at ha
        cases keys <;> cases ha

/-- What `mask` returns. -/
theorem maskArray_sound {fuel : Nat} {validWhen : Bool} {c mask : Content} (hc : Bin c) (hm : Bin mask)
    {it : Item} (h : maskArray fuel validWhen c mask = ok it) :
    ∃ out ys n, it = .array out ∧ out.toList = ok ys ∧ ys.length = n ∧ n = max c.len mask.len ∧
      (c.len = n ∨ c.len = 1 ∧ 1 < n) ∧ (mask.len = n ∨ mask.len = 1 ∧ 1 < n) ∧
      ∀ i, i < n → Masked validWhen (c.valD (if c.len = 1 then 0 else i))
        (mask.valD (if mask.len = 1 then 0 else i)) (ys[i]?.getD .null) := by
  obtain ⟨out, ys, n, h1, h2, h3, h4, h5, h6⟩ := bcastAndApply_regular (a := ⟨false, false, true⟩) rfl
    (maskGet_ok validWhen) (by simp) (cs := [c, mask]) (by simpa using ⟨hc, hm⟩) rfl h
  refine ⟨out, ys, n, h1, h2, h3, ?_, h5 c (by simp), h5 mask (by simp), fun i hi => ?_⟩
  · simpa using h4
  · simpa [Masked] using h6 i hi

/-- A mask of booleans applies to all arrays of its length. -/
theorem mask_flat_parts {fuel n : Nat} {validWhen : Bool} {c : Content} {p : Params} {data : List Atom}
    (hf : 2 ≤ fuel) (hg : c.Good) (hl : c.len = n) (hd : data.length = n) (hn : n < 2 ^ 63 - 1) :
    ∃ out, maskArray fuel validWhen c (numpy p .bool data) = ok (.array out) ∧
      out.toList = ok ((List.range n).map (fun i =>
        if decide (data[i]?.getD (.int 0) = .bool true) = validWhen then c.valD i else .null)) ∧
      out.Good ∧ ∃ c' o, c.range 0 (n : Int) = ok c' ∧
        simplifyOption (byteMasked {} (data.map (fun a => if a = .bool true then (1 : Int) else 0)) validWhen c') = ok o ∧
        o.range 0 (n : Int) = ok out := by
  obtain ⟨f, rfl⟩ : ∃ f, fuel = f + 2 := ⟨fuel - 2, by omega⟩
  obtain ⟨c', c1, c2, _, c4, _⟩ := range_good hg (a := 0) (b := n) (by omega) (by omega)
  have hcl : c'.len = n := by simpa using c4.1
  have hpc : ∀ (d : Content), d.len = n → bcastRegular n (pack d) = getitemRange d 0 (n : Int) := by
    intro d hd
    have hp := pack_len d
    unfold pack at hp ⊢
    simp only [bcastRegular, hp, Nat.one_mul]
    rw [if_neg (by omega), if_pos hd, hd]
  have hnum : getitemRange (numpy p .bool data) 0 (n : Int) = ok (numpy p .bool data) := by
    rw [getitemRange_exact (by simp [len, hd]) hn]
    simp only [range, numpyRange]
    unfold getitem_range_nowrap
    simp [← hd]
  have hgm : (byteMasked {} (data.map (fun a => if a = .bool true then (1 : Int) else 0))
      validWhen c').Good := good_byteMasked.mpr ⟨by simp; omega, c2⟩
  obtain ⟨o, o1, o2, o3, o4⟩ := simplifyOption_good hgm
  have hol : o.len = n := by rw [o3]; simp [len, hd]
  have h2 : bcastWith ⟨false, false, true⟩ (maskGet validWhen) (f + 1) 1 [c', numpy p .bool data]
      = ok [o] := by
    rw [bcastWith]
    have hid : mapR (regularToJagged false) [c', numpy p .bool data] = ok [c', numpy p .bool data] := by
      rw [mapR_forall₂]
      refine List.forall₂_same.mpr (fun d _ => ?_)
      cases d <;> rfl
    simp only [hid, bind_ok, Bool.false_eq_true, if_false]
    rw [if_neg (by simp [hcl, hd, len])]
    simp only [maskGet, ne_eq, not_true, if_false, o1, bind_ok]
  have h1 : bcastWith ⟨false, false, true⟩ (maskGet validWhen) (f + 2) 0 [pack c, pack (numpy p .bool data)]
      = ok [regular {} o n n] := by
    have hlc := pack_len c
    have hlm := pack_len (numpy p .bool data)
    rw [bcastWith]
    have hid : mapR (regularToJagged false) [pack c, pack (numpy p .bool data)]
        = ok [pack c, pack (numpy p .bool data)] := rfl
    simp only [hid, bind_ok, Bool.false_eq_true, if_false]
    rw [if_neg (by simp [hlc, hlm])]
    rw [show maskGet validWhen 0 [pack c, pack (numpy p .bool data)] = ok none from rfl, bind_ok]
    simp only
    rw [show bcastSwitch ⟨false, false, true⟩ (bcastWith ⟨false, false, true⟩ (maskGet validWhen) (f + 1)) 0
        [pack c, pack (numpy p .bool data)]
      = regularStep (bcastWith ⟨false, false, true⟩ (maskGet validWhen) (f + 1) 1)
        [pack c, pack (numpy p .bool data)] from rfl]
    unfold regularStep
    rw [show (([pack c, pack (numpy p .bool data)].map regularSize).foldl max 0) = n by
      simp [pack, regularSize, hl, hd, len]]
    simp only [mapR, hpc c hl, hpc (numpy p .bool data) (by simp [len, hd]), hnum, bind_ok,
      getitemRange_exact (show n ≤ c.len by omega) hn, show c.range 0 (n : Int) = ok c' from c1, h2,
      List.map_cons, List.map_nil]
    simp [hcl, len, hd]
  unfold maskArray bcastAndApply
  have hit : ∃ d, bcastItem (regular {} o n n) = ok (.array d) ∧ d.toList = ok ((List.range n).map o.valD) ∧
      d.Good ∧ o.range 0 (n : Int) = ok d := by
    obtain ⟨d, d1, d2, _, d4, _⟩ := range_good o2 (a := 0) (b := n) (by omega) (by omega)
    have hdl : d.len = n := by simpa using d4.1
    refine ⟨d, ?_, ?_, d2, d1⟩
    · unfold bcastItem
      by_cases hm0 : n = 0
      · subst hm0
        have : (regular {} o 0 0).len = 0 := rfl
        rw [if_pos this]
        simp only
        rw [show (o.range 0 0) = ok d from d1]
        rfl
      · have hl : (regular {} o n n).len = 1 := by
          simp only [Content.len]
          rw [if_pos hm0, hol, Nat.div_self (by omega)]
        rw [if_neg (by omega)]
        unfold getitemAt
        simp only [Int.lt_irrefl, if_false]
        rw [if_neg (by omega)]
        simp only [getitemAtNowrap, show (0 : Int).toNat = 0 from rfl, Nat.cast_zero, Int.zero_mul,
          Int.zero_add, Int.one_mul]
        rw [show (o.range 0 n) = ok d from d1]
        rfl
    · rw [d2.toList, hdl]
      congr 1
      refine List.map_congr_left (fun i hi => ?_)
      have hi := List.mem_range.mp hi
      simpa using d4.valD (show i < n - 0 by omega)
  obtain ⟨d, d1, d2, d3, d4⟩ := hit
  refine ⟨d, ?_, ?_, d3, c', o, c1, o1, d4⟩
  · rw [show (([c, numpy p .bool data]).map (fun c => regular {} c c.len 1))
      = [pack c, pack (numpy p .bool data)] from rfl, h1]
    simp only [bind_ok, mapR, d1, onlyOutput]
  · rw [d2]
    congr 1
    refine List.map_congr_left (fun i hi => ?_)
    have hi := List.mem_range.mp hi
    rw [o4 i (by simp [len]; omega), valD_byteMasked hgm (by simp; omega)]
    simp only [maskOk, List.getElem?_map, List.getElem?_eq_getElem (show i < data.length by omega),
      Option.map_some, Option.getD_some]
    have := c4.valD (show i < n - 0 by omega)
    simp only [Nat.zero_add] at this
    rw [this]
    by_cases ha : data[i] = .bool true <;> simp [ha]

theorem mask_flat {fuel n : Nat} {validWhen : Bool} {c : Content} {p : Params} {data : List Atom}
    (hf : 2 ≤ fuel) (hg : c.Good) (hl : c.len = n) (hd : data.length = n) (hn : n < 2 ^ 63 - 1) :
    ∃ out, maskArray fuel validWhen c (numpy p .bool data) = ok (.array out) ∧
      out.toList = ok ((List.range n).map (fun i =>
        if decide (data[i]?.getD (.int 0) = .bool true) = validWhen then c.valD i else .null)) := by
  obtain ⟨out, h1, h2, _⟩ := mask_flat_parts (validWhen := validWhen) (p := p) hf hg hl hd hn
  exact ⟨out, h1, h2⟩

/-- A flat mask of another type is refused. -/
theorem mask_refused {fuel n : Nat} {validWhen : Bool} {c : Content} {p : Params} {dt : DType}
    {data : List Atom} (hdt : dt ≠ .bool) (hg : c.Good) (hl : c.len = n) (hd : data.length = n)
    (hn : n < 2 ^ 63 - 1) : ∃ m, maskArray fuel validWhen c (numpy p dt data) = err m := by
  obtain ⟨c', c1, c2, _, c4, _⟩ := range_good hg (a := 0) (b := n) (by omega) (by omega)
  have hcl : c'.len = n := by simpa using c4.1
  have hpc : ∀ (d : Content), d.len = n → bcastRegular n (pack d) = getitemRange d 0 (n : Int) := by
    intro d hd
    have hp := pack_len d
    unfold pack at hp ⊢
    simp only [bcastRegular, hp, Nat.one_mul]
    rw [if_neg (by omega), if_pos hd, hd]
  have hnum : getitemRange (numpy p dt data) 0 (n : Int) = ok (numpy p dt data) := by
    rw [getitemRange_exact (by simp [len, hd]) hn]
    simp only [range, numpyRange]
    unfold getitem_range_nowrap
    simp [← hd]
  have h2 : ∀ f, ∃ m, bcastWith ⟨false, false, true⟩ (maskGet validWhen) f 1 [c', numpy p dt data]
      = err m := by
    intro f
    cases f with
    | zero => exact ⟨_, rfl⟩
    | succ f =>
      rw [bcastWith]
      have hid : mapR (regularToJagged false) [c', numpy p dt data] = ok [c', numpy p dt data] := by
        rw [mapR_forall₂]
        refine List.forall₂_same.mpr (fun d _ => ?_)
        cases d <;> rfl
      simp only [hid, bind_ok, Bool.false_eq_true, if_false]
      rw [if_neg (by simp [hcl, hd, len])]
      simp only [maskGet, ne_eq, hdt, not_false_eq_true, if_true, bind_err]
      exact ⟨_, rfl⟩
  unfold maskArray bcastAndApply
  rw [show (([c, numpy p dt data]).map (fun c => regular {} c c.len 1))
      = [pack c, pack (numpy p dt data)] from rfl]
  cases fuel with
  | zero => exact ⟨_, rfl⟩
  | succ f =>
    obtain ⟨m, hm⟩ := h2 f
    have hlc := pack_len c
    have hlm := pack_len (numpy p dt data)
    rw [bcastWith]
    have hid : mapR (regularToJagged false) [pack c, pack (numpy p dt data)]
        = ok [pack c, pack (numpy p dt data)] := rfl
    simp only [hid, bind_ok, Bool.false_eq_true, if_false]
    rw [if_neg (by simp [hlc, hlm])]
    rw [show maskGet validWhen 0 [pack c, pack (numpy p dt data)] = ok none from rfl, bind_ok]
    simp only
    rw [show bcastSwitch ⟨false, false, true⟩ (bcastWith ⟨false, false, true⟩ (maskGet validWhen) f) 0
        [pack c, pack (numpy p dt data)]
      = regularStep (bcastWith ⟨false, false, true⟩ (maskGet validWhen) f 1)
        [pack c, pack (numpy p dt data)] from rfl]
    unfold regularStep
    rw [show (([pack c, pack (numpy p dt data)].map regularSize).foldl max 0) = n by
      simp [pack, regularSize, hl, hd, len]]
    simp only [mapR, hpc c hl, hpc (numpy p dt data) (by simp [len, hd]), hnum, bind_ok,
      getitemRange_exact (show n ≤ c.len by omega) hn, show c.range 0 (n : Int) = ok c' from c1, hm,
      bind_err]
    exact ⟨_, rfl⟩

/-! ### Element-wise functions -/

theorem foldl_max_attained : ∀ (l : List Nat) (a : Nat), l.foldl max a = a ∨ l.foldl max a ∈ l
  | [], a => .inl rfl
  | x :: l, a => by
    simp only [List.foldl_cons]
    rcases foldl_max_attained l (max a x) with h | h
    · rw [h]
      rcases Nat.le_total a x with h1 | h1
      · right; rw [Nat.max_eq_right h1]; simp
      · left; exact Nat.max_eq_left h1
    · right; simp [h]

theorem foldl_max_mem_self {l : List Nat} (h : l ≠ []) : l.foldl max 0 ∈ l := by
  rcases foldl_max_attained l 0 with h1 | h1
  · obtain ⟨x, hx⟩ := List.exists_mem_of_ne_nil l h
    have := (foldl_max_mem l 0).2 x hx
    have : x = 0 := by omega
    rw [h1, ← this]; exact hx
  · exact h1

theorem bcastDim_ok {l : List Nat} {d : Nat} (h : bcastDim l = ok d) (hne : l ≠ []) :
    (∀ x ∈ l, x = d ∨ x = 1) ∧ d ∈ l := by
  unfold bcastDim at h
  split at h
  · rename_i hf
    simp only [ok.injEq] at h; subst h
    have : ∀ x ∈ l, x = 1 := by
      intro x hx
      apply Classical.byContradiction
      intro hx1
      have : x ∈ l.filter (· != 1) := List.mem_filter.mpr ⟨hx, by simpa using hx1⟩
      rw [hf] at this; cases this
    obtain ⟨x, hx⟩ := List.exists_mem_of_ne_nil l hne
    exact ⟨fun x hx => .inl (this x hx), by rw [← this x hx]; exact hx⟩
  · rename_i s rest hf
    split at h
    · rename_i hall
      simp only [ok.injEq] at h; subst h
      rw [List.all_eq_true] at hall
      have hmem : ∀ x, x ∈ l.filter (· != 1) → x = s := by
        intro x hx
        rw [hf] at hx
        rcases List.mem_cons.mp hx with h | h
        · exact h
        · simpa using hall x h
      refine ⟨fun x hx => ?_, ?_⟩
      · by_cases hx1 : x = 1
        · exact .inr hx1
        · exact .inl (hmem x (List.mem_filter.mpr ⟨hx, by simpa using hx1⟩))
      · exact (List.mem_filter.mp (by rw [hf]; simp : s ∈ l.filter (· != 1))).1
    · cases h

theorem allSome_ok {α : Type} : ∀ {l : List (Option α)} {xs : List α}, allSome l = some xs → l = xs.map some
  | [], xs, h => by simp only [allSome, Option.some.injEq] at h; subst h; rfl
  | none :: l, xs, h => by cases h
  | some x :: l, xs, h => by
    simp only [allSome, Option.map_eq_some_iff] at h
    obtain ⟨ys, h1, rfl⟩ := h
    rw [allSome_ok h1]; rfl

/-- The values of a flat array. -/
def leafData : Content → List Atom
  | numpy _ _ data => data
  | _ => []

theorem leaf_val {c : Content} (hc : c.isNumpy = true) {i : Nat} (hi : i < c.len) :
    c.valD i = .atom (c.leafData[i]?.getD (.int 0)) := by
  cases c <;> simp only [isNumpy, Bool.false_eq_true] at hc
  case numpy p dt data =>
    simp only [len] at hi
    rw [valD_numpy hi]
    simp [leafData, hi]

theorem leaf_len {c : Content} (hc : c.isNumpy = true) : c.leafData.length = c.len := by
  cases c <;> simp only [isNumpy, Bool.false_eq_true] at hc
  rfl

theorem drop_headD {α : Type} (l : List α) (i : Nat) (x : α) : (l.drop i).headD x = l[i]?.getD x := by
  rw [List.headD_eq_head?_getD, List.head?_drop]

/-- One dimension. -/
theorem ndApply_row (f : List Atom → Atom) (n : Nat) (cs : List Content) :
    ndApply f [n] (cs.map (fun c => ([c.len], c.leafData)))
      = (List.range n).map (fun i => f (cs.map (fun c => c.leafData[if c.len = 1 then 0 else i]?.getD (.int 0)))) := by
  simp only [ndApply, List.map_map]
  rw [← List.flatMap_def, ← List.map_eq_flatMap]
  refine List.map_congr_left (fun i _ => ?_)
  congr 1
  refine List.map_congr_left (fun c _ => ?_)
  simp [drop_headD]

theorem deregulate_leaf {c : Content} (h : BcastNode c) :
    deregulate c = ok (if c.isNumpy then some ([c.len], c.leafData) else none) := by
  cases c <;> first | rfl | (simp [BcastNode] at h; done)

theorem deregulate_pack {c : Content} (h : BcastNode c) :
    deregulate (pack c) = ok (if c.isNumpy then some ([1, c.len], c.leafData) else none) := by
  have hl := pack_len c
  cases c <;> first | rfl | (simp [BcastNode] at h; done) | skip
  case numpy p dt data =>
    unfold pack at hl ⊢
    simp only [deregulate, regularShape, and_self, if_true, hl]
    simp [Content.len, isNumpy, leafData]

theorem allSome_leaves (cs : List Content) (F : Content → List Nat × List Atom) {xs : List (List Nat × List Atom)}
    (h : allSome (cs.map (fun c => if c.isNumpy then some (F c) else none)) = some xs) :
    (∀ c ∈ cs, c.isNumpy = true) ∧ xs = cs.map F := by
  induction cs generalizing xs with
  | nil => simp only [List.map_nil, allSome, Option.some.injEq] at h; subst h; simp
  | cons c cs ih =>
    simp only [List.map_cons] at h
    by_cases hc : c.isNumpy = true
    · simp only [hc, if_true, allSome, Option.map_eq_some_iff] at h
      obtain ⟨ys, h1, rfl⟩ := h
      obtain ⟨h2, rfl⟩ := ih h1
      exact ⟨by simpa using ⟨hc, h2⟩, rfl⟩
    · simp [hc, allSome] at h

theorem ufuncGet_ok (f : List Atom → Atom) (dt : DType) {w : Nat} (hw : w ≠ 0) :
    GetOk (fun _ => AllNodes BcastNode) (ufuncGet f dt)
      (fun _ vs outs => ∃ as, vs = as.map Val.atom ∧ outs = [.atom (f as)])
      (fun _ vs => Val.null ∈ vs ∨ ∃ xs, Val.list xs ∈ vs) false w 1 where
  stop depth b cs outs n hl hg h := by
    unfold ufuncGet at h
    split at h
    · cases h
    have hne : cs ≠ [] := by rintro rfl; simp at hl; omega
    rw [show mapR deregulate cs = ok (cs.map (fun c => if c.isNumpy then some ([c.len], c.leafData) else none)) by
      rw [mapR_forall₂, List.forall₂_map_right_iff]
      exact List.forall₂_same.mpr (fun c hc => deregulate_leaf (hg c hc).1.nodes.here), bind_ok] at h
    split at h
    · cases h
    rename_i xs hxs
    obtain ⟨hnum, rfl⟩ := allSome_leaves cs _ hxs
    rw [bind_eq_ok] at h
    obtain ⟨shape, hs, h⟩ := h
    simp only [ok.injEq, Option.some.injEq] at h; subst h
    have hshape : shape = [n] := by
      obtain ⟨c0, cs', rfl⟩ := List.exists_cons_of_ne_nil hne
      have hl0 := (hg c0 (by simp)).2
      simp only [List.map_cons, List.headD_cons, List.length_singleton, bcastShape] at hs
      rw [if_neg (by simp)] at hs
      simp only [bind_eq_ok] at hs
      obtain ⟨d, hd, ds, h2, h3⟩ := hs
      split at h2
      · simp only [ok.injEq] at h2 h3; subst h2; subst h3
        have := (bcastDim_ok hd (by simp)).2
        simp only [List.headD_cons, List.map_map, List.mem_cons, List.mem_map] at this
        rcases this with h | ⟨c, hc, h⟩
        · rw [h, hl0]
        · rw [← h]
          exact congrArg (fun x => [x]) (hg c (by simp [hc])).2
      · cases h2
    subst hshape
    rw [ndApply_row]
    have hlen : (fromNd dt ([n].headD 0) [n].tail ((List.range n).map (fun i => f (cs.map (fun c =>
      c.leafData[if c.len = 1 then 0 else i]?.getD (.int 0)))))).len = n := by simp [fromNd, len]
    refine ⟨rfl, fun c hc => (hg c hc).2, by simpa using ⟨good_numpy _ _ _, hlen⟩, fun i hi => ?_⟩
    refine ⟨cs.map (fun c => c.leafData[i]?.getD (.int 0)), ?_, ?_⟩
    · rw [List.map_map]
      exact List.map_congr_left (fun c hc => leaf_val (hnum c hc) (by rw [(hg c hc).2]; exact hi))
    · simp only [List.map_cons, List.map_nil, List.cons.injEq, and_true]
      show (numpy {} dt _).valD i = _
      rw [valD_numpy (by simpa using hi)]
      simp only [List.getElem_map, List.getElem_range, Val.atom.injEq]
      congr 1
      refine List.map_congr_left (fun c hc => ?_)
      have := (hg c hc).2
      split
      · have : i = 0 := by omega
        rw [this]
      · rfl
  null depth cs vs h hl hn := .inl hn
  go depth b cs n hl hg h hk hr i hi := by
    rcases hr with hr | ⟨c, hc, hj⟩
    · cases hr
    · obtain ⟨xs, hx⟩ := jagged_val BcastNode.fam (b := b) (hg c hc).1 hj (i := i) (by rw [(hg c hc).2]; exact hi)
      exact .inr ⟨xs, List.mem_map.mpr ⟨c, hc, hx⟩⟩

/-- What an element-wise function returns. -/
theorem elementwise_sound {f : List Atom → Atom} {dt : DType} {fuel : Nat} {cs : List Content}
    (hne : cs ≠ []) (hb : ∀ c ∈ cs, Bin c) {it : Item} (h : elementwise f dt fuel cs = ok it) :
    ∃ out ys n, it = .array out ∧ out.toList = ok ys ∧ ys.length = n ∧
      (∃ c ∈ cs, c.len = n) ∧ (∀ c ∈ cs, c.len = n ∨ c.len = 1) ∧
      ∀ i, i < n → Elementwise f (cs.map (fun c => c.valD (if c.len = 1 then 0 else i)))
        (ys[i]?.getD .null) := by
  have hw : cs.length ≠ 0 := by simpa using hne
  unfold elementwise at h
  have hbeh : (cs.map pack).any hasBehavior = false := by
    rw [List.any_eq_false]
    intro c hc
    obtain ⟨d, _, rfl⟩ := List.mem_map.mp hc
    simp [pack, hasBehavior, params]
  have hde : mapR deregulate (cs.map pack)
      = ok (cs.map (fun c => if c.isNumpy then some ([1, c.len], c.leafData) else none)) := by
    rw [mapR_forall₂, List.forall₂_map_left_iff, List.forall₂_map_right_iff]
    exact List.forall₂_same.mpr (fun c hc => deregulate_pack (hb c hc).nodes.here)
  cases hall : allSome (cs.map (fun c => if c.isNumpy then some ([1, c.len], c.leafData) else none)) with
  | none =>
    have hstay : ufuncGet f dt 0 (cs.map pack) = ok none := by
      unfold ufuncGet
      rw [hbeh, hde]
      simp [hall]
    obtain ⟨out, ys, n, h1, h2, h3, h4, h5, h6⟩ := bcastAndApply_regular (a := ⟨true, false, false⟩) rfl
      (ufuncGet_ok f dt hw) hne hb hstay h
    refine ⟨out, ys, n, h1, h2, h3, ?_, fun c hc => (h5 c hc).imp id And.left, h6⟩
    have := foldl_max_mem_self (l := cs.map len) (by simpa using hne)
    rw [← h4] at this
    obtain ⟨c, hc, h⟩ := List.mem_map.mp this
    exact ⟨c, hc, h⟩
  | some xs =>
    obtain ⟨hnum, rfl⟩ := allSome_leaves cs _ hall
    cases fuel with
    | zero =>
      exfalso
      simp [bcastAndApply, bcastWith] at h
    | succ fuel =>
      unfold bcastAndApply at h
      rw [show (fun c : Content => regular {} c c.len 1) = pack from rfl] at h
      have hid : mapR (regularToJagged false) (cs.map pack) = ok (cs.map pack) := by
        rw [mapR_forall₂]
        refine List.forall₂_same.mpr (fun c hc => ?_)
        obtain ⟨d, _, rfl⟩ := List.mem_map.mp hc
        rfl
      have hlens : ((cs.map pack).any (fun c => c.len != (((cs.map pack).map len).headD 0))) = false := by
        obtain ⟨c1, cs', rfl⟩ := List.exists_cons_of_ne_nil hne
        simp [pack_len]
      rw [bcastWith] at h
      simp only [hid, bind_ok, if_true, rightBroadcast_pack hb, hlens, Bool.false_eq_true, if_false] at h
      rw [show ufuncGet f dt 0 (cs.map pack) = (bcastShape ((cs.map (fun c => ([1, c.len], c.leafData))).headD ([], [])).1.length
          ((cs.map (fun c => ([1, c.len], c.leafData))).map Prod.fst) >>= fun shape =>
          ok (some [fromNd dt (shape.headD 0) shape.tail (ndApply f shape (cs.map (fun c => ([1, c.len], c.leafData))))])) by
        unfold ufuncGet
        rw [hbeh, hde]
        simp [hall]] at h
      simp only [bind_eq_ok] at h
      obtain ⟨items, ⟨outs, ⟨r, ⟨shape, hs, hr⟩, ho⟩, hi⟩, hit⟩ := h
      simp only [ok.injEq] at hr; subst hr
      simp only [ok.injEq] at ho; subst ho
      obtain ⟨n, hshape, hn1, hn2⟩ : ∃ n, shape = [1, n] ∧ (∀ c ∈ cs, c.len = n ∨ c.len = 1) ∧ ∃ c ∈ cs, c.len = n := by
        obtain ⟨c0, cs', rfl⟩ := List.exists_cons_of_ne_nil hne
        simp only [List.map_cons, List.headD_cons, List.length_cons, List.length_nil, bcastShape] at hs
        rw [if_neg (by simp)] at hs
        simp only [bind_eq_ok] at hs
        obtain ⟨d, hd, ds, h2, h3⟩ := hs
        rw [if_neg (by simp)] at h2
        simp only [bind_eq_ok] at h2
        obtain ⟨e, he, es, h4, h5⟩ := h2
        split at h4
        · simp only [ok.injEq] at h3 h4 h5; subst h4; subst h5; subst h3
          have h6 := (bcastDim_ok hd (by simp)).2
          have h7 := bcastDim_ok he (by simp)
          simp only [List.headD_cons, List.map_map, List.mem_cons, List.mem_map, List.tail_cons,
            List.map_cons, Function.comp_apply] at h6 h7
          have h8 : d = 1 := by
            rcases h6 with h | ⟨c, _, h⟩
            · exact h
            · exact h.symm
          refine ⟨e, by rw [h8], ?_, ?_⟩
          · intro c hc
            rcases List.mem_cons.mp hc with rfl | hc
            · exact h7.1 _ (.inl rfl)
            · exact h7.1 _ (.inr ⟨c, hc, rfl⟩)
          · rcases h7.2 with h | ⟨c, hc, h⟩
            · exact ⟨c0, by simp, h.symm⟩
            · exact ⟨c, by simp [hc], h⟩
        · cases h4
      subst hshape
      have hnd : ndApply f [1, n] (cs.map (fun c => ([1, c.len], c.leafData)))
          = (List.range n).map (fun i => f (cs.map (fun c =>
            c.leafData[if c.len = 1 then 0 else i]?.getD (.int 0)))) := by
        rw [← ndApply_row]
        rw [ndApply]
        simp only [List.range_one, List.map_cons, List.map_nil, List.flatten_cons, List.flatten_nil,
          List.append_nil, List.map_map]
        congr 1
        refine List.map_congr_left (fun c _ => ?_)
        simp
      rw [hnd] at hi
      generalize hdata : (List.range n).map (fun i => f (cs.map (fun c =>
            c.leafData[if c.len = 1 then 0 else i]?.getD (.int 0)))) = data at hi
      have hdl : data.length = n := by rw [← hdata]; simp
      simp only [List.headD_cons, List.tail_cons, fromNd, Nat.one_mul, mapR, bind_eq_ok, ok.injEq] at hi
      obtain ⟨it', h6, _, rfl, rfl⟩ := hi
      simp only [onlyOutput, ok.injEq] at hit; subst hit
      have hp : regular {} (numpy {} dt data) n 1 = pack (numpy {} dt data) := by
        simp [pack, Content.len, hdl]
      rw [hp] at h6
      obtain ⟨hpg, hpv⟩ := pack_row (good_numpy {} dt data)
      obtain ⟨out, ho1, ho2⟩ := bcastItem_list hpg (by rw [pack_len]; omega) hpv h6
      refine ⟨out, _, n, ho1, ho2, by simp [Content.len, hdl], hn2, hn1, fun i hi => .done ?_⟩
      refine ⟨cs.map (fun c => c.leafData[if c.len = 1 then 0 else i]?.getD (.int 0)), ?_, ?_⟩
      · rw [List.map_map]
        refine List.map_congr_left (fun c hc => leaf_val (hnum c hc) ?_)
        rcases hn1 c hc with h | h <;> split <;> omega
      · simp only [List.cons.injEq, and_true]
        rw [List.getElem?_eq_getElem (by simpa [Content.len, hdl] using hi)]
        simp only [List.getElem_map, List.getElem_range, Option.getD_some]
        rw [valD_numpy (by omega)]
        simp [← hdata]

theorem bcastDim_same {n : Nat} {l : List Nat} (hne : l ≠ []) (h : ∀ x ∈ l, x = n) : bcastDim l = ok n := by
  unfold bcastDim
  by_cases hn : n = 1
  · have : l.filter (· != 1) = [] := by
      rw [List.filter_eq_nil_iff]
      intro x hx
      simp [h x hx, hn]
    rw [this, hn]
  · have : l.filter (· != 1) = l := by
      rw [List.filter_eq_self]
      intro x hx
      simp [h x hx, hn]
    rw [this]
    obtain ⟨x, l', rfl⟩ := List.exists_cons_of_ne_nil hne
    simp only
    rw [if_pos, h x (by simp)]
    rw [List.all_eq_true]
    intro y hy
    rw [h y (by simp [hy]), h x (by simp)]
    simp

/-- Element-wise functions apply to flat arrays of the same length. -/
theorem elementwise_flat_numpy (f : List Atom → Atom) (dt : DType) {fuel n : Nat} (hf : 1 ≤ fuel)
    (ds : List (Params × DType × List Atom)) (hne : ds ≠ []) (hl : ∀ d ∈ ds, d.2.2.length = n) :
    ∃ out, elementwise f dt fuel (ds.map (fun d => numpy d.1 d.2.1 d.2.2)) = ok (.array out) ∧
      out.toList = ok ((List.range n).map (fun i => .atom (f (ds.map (fun d => d.2.2[i]?.getD (.int 0)))))) ∧
      ∃ data, out = numpy {} dt data := by
  obtain ⟨g, rfl⟩ : ∃ g, fuel = g + 1 := ⟨fuel - 1, by omega⟩
  generalize hcs : ds.map (fun d => numpy d.1 d.2.1 d.2.2) = cs
  have hne' : cs ≠ [] := by rw [← hcs]; simpa using hne
  have hb : ∀ c ∈ cs, Bin c := by
    intro c hc
    rw [← hcs] at hc
    obtain ⟨d, _, rfl⟩ := List.mem_map.mp hc
    exact ⟨good_numpy _ _ _, .mk trivial (by simp [children])⟩
  have hnum : ∀ c ∈ cs, c.isNumpy = true ∧ c.len = n := by
    intro c hc
    rw [← hcs] at hc
    obtain ⟨d, hd, rfl⟩ := List.mem_map.mp hc
    exact ⟨rfl, hl d hd⟩
  have hbeh : (cs.map pack).any hasBehavior = false := by
    rw [List.any_eq_false]
    intro c hc
    obtain ⟨d, _, rfl⟩ := List.mem_map.mp hc
    simp [pack, hasBehavior, params]
  have hde : mapR deregulate (cs.map pack)
      = ok ((cs.map (fun c => ([1, c.len], c.leafData))).map some) := by
    rw [mapR_forall₂, List.forall₂_map_left_iff, List.forall₂_map_right_iff, List.forall₂_map_right_iff]
    refine List.forall₂_same.mpr (fun c hc => ?_)
    rw [deregulate_pack (hb c hc).nodes.here, if_pos (hnum c hc).1]
  have hall : ∀ (l : List (List Nat × List Atom)), allSome (l.map some) = some l := by
    intro l
    induction l with
    | nil => rfl
    | cons x l ih => simp [allSome, ih]
  have hshape : bcastShape (((cs.map (fun c => ([1, c.len], c.leafData))).headD ([], [])).1.length)
      ((cs.map (fun c => ([1, c.len], c.leafData))).map Prod.fst) = ok [1, n] := by
    obtain ⟨c0, cs', rfl⟩ := List.exists_cons_of_ne_nil hne'
    simp only [List.map_cons, List.headD_cons, List.length_cons, List.length_nil]
    rw [show (0 + 1 + 1) = 2 from rfl]
    rw [bcastShape, if_neg (by simp), bcastDim_same (n := 1) (by simp) (by
      intro x hx
      simp only [List.map_map, List.mem_cons, List.mem_map, List.map_cons, List.headD_cons] at hx
      rcases hx with h | ⟨c, _, h⟩
      · exact h
      · exact h.symm), bind_ok, bcastShape, if_neg (by simp), bcastDim_same (n := n) (by simp) (by
      intro x hx
      simp only [List.map_map, List.mem_cons, List.mem_map, List.map_cons, List.headD_cons, List.tail_cons] at hx
      rcases hx with h | ⟨c, hc, h⟩
      · rw [h]; exact (hnum c0 (by simp)).2
      · rw [← h]; exact (hnum c (by simp [hc])).2), bind_ok, bcastShape, if_pos (by simp), bind_ok, bind_ok]
  have hnd : ndApply f [1, n] (cs.map (fun c => ([1, c.len], c.leafData)))
      = (List.range n).map (fun i => f (cs.map (fun c =>
        c.leafData[if c.len = 1 then 0 else i]?.getD (.int 0)))) := by
    rw [← ndApply_row]
    rw [ndApply]
    simp only [List.range_one, List.map_cons, List.map_nil, List.flatten_cons, List.flatten_nil,
      List.append_nil, List.map_map]
    congr 1
    refine List.map_congr_left (fun c _ => ?_)
    simp
  have hrow : ∀ i, i < n → cs.map (fun c => c.leafData[if c.len = 1 then 0 else i]?.getD (.int 0))
      = ds.map (fun d => d.2.2[i]?.getD (.int 0)) := by
    intro i hi
    rw [← hcs, List.map_map]
    refine List.map_congr_left (fun d hd => ?_)
    have := hl d hd
    show (leafData (numpy d.1 d.2.1 d.2.2))[if (numpy d.1 d.2.1 d.2.2).len = 1 then 0 else i]?.getD (.int 0) = _
    split
    next h1 =>
      have : d.2.2.length = 1 := h1
      rw [show i = 0 by omega]; rfl
    next => rfl
  have hget : ufuncGet f dt 0 (cs.map pack) = ok (some [pack (numpy {} dt ((List.range n).map (fun i =>
      f (ds.map (fun d => d.2.2[i]?.getD (.int 0))))))]) := by
    unfold ufuncGet
    rw [hbeh, hde]
    simp only [Bool.false_eq_true, if_false, bind_ok, hall, hshape, hnd]
    simp only [List.headD_cons, List.tail_cons, fromNd, Nat.one_mul, pack, len, List.length_map,
      List.length_range]
    rw [show (List.range n).map (fun i => f (cs.map (fun c => c.leafData[if c.len = 1 then 0 else i]?.getD (.int 0))))
      = (List.range n).map (fun i => f (ds.map (fun d => d.2.2[i]?.getD (.int 0)))) from
      List.map_congr_left (fun i hi => by rw [hrow i (List.mem_range.mp hi)])]
  generalize hdata : (List.range n).map (fun i => f (ds.map (fun d => d.2.2[i]?.getD (.int 0)))) = data at hget
  have hid : mapR (regularToJagged false) (cs.map pack) = ok (cs.map pack) := by
    rw [mapR_forall₂]
    refine List.forall₂_same.mpr (fun c hc => ?_)
    obtain ⟨d, _, rfl⟩ := List.mem_map.mp hc
    rfl
  have hlens : ((cs.map pack).any (fun c => c.len != (((cs.map pack).map len).headD 0))) = false := by
    obtain ⟨c1, cs', rfl⟩ := List.exists_cons_of_ne_nil hne'
    simp [pack_len]
  obtain ⟨hpg, hpv⟩ := pack_row (good_numpy {} dt data)
  have hpl := pack_len (numpy {} dt data)
  obtain ⟨d, h1, h2⟩ := getitem_list hpg (by omega) hpv
  refine ⟨d, ?_, ?_, ?_⟩
  rotate_right
  · simp only [pack, getitemAtNowrap, bind_eq_ok, ok.injEq, Item.array.injEq] at h1
    obtain ⟨e, h1, rfl⟩ := h1
    simp only [Content.range, numpyRange, bind_eq_ok, ok.injEq] at h1
    obtain ⟨data', _, rfl⟩ := h1
    exact ⟨data', rfl⟩
  · unfold elementwise bcastAndApply
    rw [show (fun c : Content => regular {} c c.len 1) = pack from rfl, bcastWith]
    simp only [hid, bind_ok, if_true, rightBroadcast_pack hb, hlens, Bool.false_eq_true, if_false, hget,
      mapR]
    unfold bcastItem
    rw [if_neg (by omega)]
    unfold getitemAt
    simp only [Int.lt_irrefl, if_false]
    rw [if_neg (by omega)]
    simp only [show (0 : Int).toNat = 0 from rfl, h1, bind_ok, onlyOutput]
  · rw [h2]
    congr 1
    have hdl : data.length = n := by rw [← hdata]; simp
    simp only [len, hdl]
    refine List.map_congr_left (fun i hi => ?_)
    have hi := List.mem_range.mp hi
    rw [valD_numpy (by omega)]
    simp [← hdata]

theorem elementwise_flat (f : List Atom → Atom) (dt : DType) {fuel n : Nat} (hf : 1 ≤ fuel)
    (ds : List (Params × DType × List Atom)) (hne : ds ≠ []) (hl : ∀ d ∈ ds, d.2.2.length = n) :
    ∃ out, elementwise f dt fuel (ds.map (fun d => numpy d.1 d.2.1 d.2.2)) = ok (.array out) ∧
      out.toList = ok ((List.range n).map (fun i => .atom (f (ds.map (fun d => d.2.2[i]?.getD (.int 0)))))) := by
  obtain ⟨out, h1, h2, _⟩ := elementwise_flat_numpy f dt hf ds hne hl
  exact ⟨out, h1, h2⟩

end Content
end Awk
