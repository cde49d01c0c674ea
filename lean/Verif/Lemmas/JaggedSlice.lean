import Verif.Lemmas.JaggedMissing
import Verif.Lemmas.GetitemMask
import Verif.Lemmas.SortLocal
/-
From a ragged array to a slice, and the whole of `array[index]`.
-/

namespace Awk
open R Spec

/-- What a slice shows. -/
inductive Shows : Bool → Nat → JSlice → List Val → Prop
  | array {b : Bool} {idx : List Int} {fb : Bool} : Shows b 0 (.array idx fb) (idx.map intVal)
  | missing {q : Nat → Option Int} {N : Nat} {idx : List Int} {fb : Bool} {ws : List Val} :
      ShowsMissing q N idx ws → Shows true 0 (.missing (outIndex q N) (.array idx fb)) ws
  | jagged {b : Bool} {n : Nat} {f : Nat → Nat} {N : Nat} {s : JSlice} {ws' ws : List Val} :
      Shows b n s ws' → Content.Cuts f N ws' ws → Shows b (n + 1) (.jagged (offsTo f N) s) ws

namespace Spec

theorem IndexItems.sub {bools : Bool} {dt : DType} {data data' : List Atom}
    (h : IndexItems bools dt data) (hs : ∀ x ∈ data', x ∈ data) : IndexItems bools dt data' := by
  unfold IndexItems at h ⊢
  split
  · rename_i hb
    rw [if_pos hb] at h
    exact ⟨h.1, fun x hx => h.2 x (hs x hx)⟩
  · rename_i hb
    rw [if_neg hb] at h
    exact ⟨h.1, fun x hx => h.2 x (hs x hx)⟩

theorem RaggedIndex.closed (bools : Bool) :
    Content.ClosedG False (fun (a : Bool × Nat) c => RaggedIndex bools a.1 a.2 c) where
  lazy := by
    rintro ⟨miss, n⟩ idx c _ h
    exact .index rfl (by simpa [Content.children] using h)
  node := by
    rintro c' c hcls hloc hd ⟨miss, n⟩ h
    dsimp only at h ⊢
    have hleaf : ∀ {p' dt' data' p dt data}, c' = .numpy p' dt' data' → c = .numpy p dt data →
        IndexItems bools dt data → IndexItems bools dt' data' := by
      intro p' dt' data' p dt data h1 h2 h3
      obtain ⟨p'', data'', e1, e2⟩ := hloc.leaf _ _ _ h1
      rw [h2] at e1
      simp only [Content.numpy.injEq] at e1
      rw [← e1.2.1]
      exact h3.sub (fun x hx => by rw [e1.2.2]; exact e2 x hx)
    have hreg : ∀ {p d size zeros}, c' = .regular p d size zeros →
        ∃ p' d' z', c = .regular p' d' size z' := fun he => hloc.reg _ _ _ _ he
    have hlo : ∀ {p offs d}, c' = .listOffset p offs d →
        ∃ p' offs', c = .listOffset p' offs' d ∧ ∀ o ∈ offs, o ∈ offs' := fun he => by
      obtain ⟨p', offs', e1, _, e2⟩ := hloc.first _ _ _ he
      exact ⟨p', offs', e1, e2⟩
    have hpar := hloc.params
    cases h with
    | empty =>
      cases c' <;> simp only [Content.cls] at hcls <;> first | exact .empty | omega
    | numpy h1 =>
      cases c' <;> simp only [Content.cls] at hcls <;>
        first | exact .numpy (hleaf rfl rfl h1) | omega
    | missing h0 h1 h2 =>
      refine .missing h0 ?_ (fun d' hd' => ?_)
      · cases c <;> simp only [canMiss, Bool.false_eq_true] at h1 <;>
          cases c' <;> simp only [Content.cls] at hcls <;> first | rfl | omega
      · obtain ⟨d0, g1, g2⟩ := hd d' hd'
        exact g2 (false, 0) (h2 d0 g1)
    | @listOffset _ n p offsets d h1 h2 h3 =>
      cases c' with
      | listOffset p' offs' d' =>
        obtain ⟨p'', offs'', e1, e2⟩ := hlo rfl
        simp only [Content.listOffset.injEq] at e1
        obtain ⟨rfl, rfl, rfl⟩ := e1
        simp only [Content.params] at hpar
        exact .listOffset (fun o ho => h1 o (e2 o ho)) (by rw [hpar]; exact h2) h3
      | listArray p' starts' stops' d' =>
        obtain ⟨d0, g1, g2⟩ := hd d' (by simp [Content.children])
        simp only [Content.children, List.mem_singleton] at g1
        subst g1
        simp only [Content.params] at hpar
        exact .listArray (by rw [hpar]; exact h2) (g2 (_, _) h3)
      | regular p' d' size zeros =>
        obtain ⟨_, _, _, he⟩ := hreg rfl
        exact Content.noConfusion he
      | _ => simp only [Content.cls] at hcls; omega
    | @listArray _ n p starts stops d h1 h2 =>
      cases c' with
      | listArray p' starts' stops' d' =>
        obtain ⟨d0, g1, g2⟩ := hd d' (by simp [Content.children])
        simp only [Content.children, List.mem_singleton] at g1
        subst g1
        simp only [Content.params] at hpar
        exact .listArray (by rw [hpar]; exact h1) (g2 (_, _) h2)
      | listOffset p' offs' d' =>
        obtain ⟨p'', offs'', e1, e2⟩ := hlo rfl
        exact Content.noConfusion e1
      | regular p' d' size zeros =>
        obtain ⟨_, _, _, he⟩ := hreg rfl
        exact Content.noConfusion he
      | _ => simp only [Content.cls] at hcls; omega
    | index h1 h2 =>
      refine .index ?_ ?_
      · cases c <;> simp only [isIndex, Bool.false_eq_true] at h1 <;>
          cases c' <;> simp only [Content.cls] at hcls <;> first | rfl | omega
      · intro d' hd'
        obtain ⟨d0, g1, g2⟩ := hd d' hd'
        exact g2 (_, _) (h2 d0 g1)

end Spec

namespace Content

/-! ### `asslice` -/

/-- Not an array of booleans. -/
def NotMask (s : JSlice) : Prop := ∀ idx, s ≠ .array idx true

/-- The content that `asslice` of lists looks at. -/
theorem asslice_view {offsets : List Int} {d : Content} {N : Nat} (hl : offsets.length = N + 1)
    (hm : ∀ i (h : i + 1 < offsets.length), offsets[i] ≤ offsets[i + 1])
    (hb : ∀ o ∈ offsets, 0 ≤ o ∧ o ≤ d.len) (hd : d.Good) :
    ∃ next, next.Good ∧ next.rank ≤ d.rank ∧
      (∀ {ι : Type} {P : ι → Content → Prop}, ClosedG False P → ∀ a, P a d → P a next) ∧
      next.len = sumTo (pairLen offsets (offsets.drop 1)) N ∧
      (∀ i, i < N → next.seg (sumTo (pairLen offsets (offsets.drop 1)) i)
          (pairLen offsets (offsets.drop 1) i)
        = d.seg (startAt offsets i).toNat (pairLen offsets (offsets.drop 1) i)) ∧
      ∀ rec : Content → R JSlice,
        (∀ s, rec next = ok s → NotMask s → listAsslice rec offsets d
          = ok (.jagged (offsTo (pairLen offsets (offsets.drop 1)) N) s)) ∧
        ∀ nonzero, rec next = ok (.array nonzero true) → listAsslice rec offsets d
          = ListOffsetArray_getitem_adjust_offsets (alloc ((N + 1 : Nat) : Int))
              (alloc nonzero.length) (offsTo (pairLen offsets (offsets.drop 1)) N) N nonzero
              nonzero.length >>= fun on => ok (.jagged on.1 (.array on.2 true)) := by
  set f := pairLen offsets (offsets.drop 1) with hf
  have hfi : ∀ i (h : i + 1 < offsets.length), (f i : Int) = offsets[i + 1] - offsets[i] := by
    intro i hi
    have := hm i hi
    rw [hf]
    simp only [pairLen, List.getElem?_drop]
    rw [List.getElem?_eq_getElem (show 1 + i < offsets.length by omega),
      List.getElem?_eq_getElem (show i < offsets.length by omega)]
    simp only [Option.getD_some, Nat.add_comm 1 i]
    omega
  have hsum : ∀ i (h : i < offsets.length), ((sumTo f i : Nat) : Int) = offsets[i] - offsets[0] := by
    intro i
    induction i with
    | zero => intro _; simp
    | succ i ih =>
      intro hi
      have h1 := ih (by omega)
      have h2 := hfi i hi
      rw [sumTo_succ]; omega
  obtain ⟨a, ha⟩ : ∃ a : Nat, offsets[0] = a := ⟨offsets[0].toNat, by
    have := hb offsets[0] (List.getElem_mem _); omega⟩
  obtain ⟨z, hz⟩ : ∃ z : Nat, offsets[N] = z := ⟨offsets[N].toNat, by
    have := hb offsets[N] (List.getElem_mem _); omega⟩
  have hsN := hsum N (by omega)
  have hzl := (hb offsets[N] (List.getElem_mem _)).2
  obtain ⟨next, e1, e2, e3, e4, e5⟩ := range_good hd (a := a) (b := z) (by omega) (by omega)
  refine ⟨next, e2, e3, ?_, ?_, ?_, ?_⟩
  · intro ι P hP x hx
    exact range_closedG hP hd (a := a) (b := z) (fun h => h.elim) (by omega) (by omega) e1 x hx
  · rw [e4.1]; omega
  · intro i hi
    have h1 := hsum i (by omega)
    have h2 := hsum (i + 1) (by omega)
    have h3 := sumTo_mono (f := f) (show i + 1 ≤ N by omega)
    rw [sumTo_succ] at h3
    have h4 : startAt offsets i = offsets[i] := by simp [startAt, show i < offsets.length by omega]
    apply List.map_congr_left
    intro k hk
    rw [List.mem_range] at hk
    rw [e4.valD (by omega), h4]
    congr 1; omega
  · intro rec
    have hoff : (if (a : Int) ≠ 0 then
        ListOffsetArray_compact_offsets (alloc offsets.length) offsets (offsets.length - 1)
        else ok offsets) = ok (offsTo f N) := by
      split
      · rw [show offsets.length - 1 = N by omega, ListOffsetArray_compact_offsets_ok hl hm]
      · rename_i h0
        rw [← offs_zero hl hm (by omega)]
    have hr0 : rd offsets 0 = ok (a : Int) := by
      rw [rd_ok (by omega) (by omega)]; simp only [Int.toNat_zero]; rw [ha]
    have hrN : rd offsets ((offsets.length - 1 : Nat) : Int) = ok (z : Int) := by
      rw [show offsets.length - 1 = N by omega, rd_nat_ok (by omega), hz]
    constructor
    · intro s hs hn
      unfold listAsslice
      rw [hr0, bind_ok, hrN, bind_ok, e1, bind_ok, hoff, bind_ok, hs, bind_ok]
      cases s with
      | array idx fb =>
        cases fb with
        | false => rfl
        | true => exact absurd rfl (hn idx)
      | _ => rfl
    · intro nonzero hs
      unfold listAsslice
      rw [hr0, bind_ok, hrN, bind_ok, e1, bind_ok, hoff, bind_ok, hs, bind_ok]
      simp only [offsTo_length]
      rfl

theorem cuts_view {offsets : List Int} {d next : Content} {N : Nat} {f : Nat → Nat}
    (hl : next.len = sumTo f N)
    (hv : ∀ i, i < N → next.seg (sumTo f i) (f i) = d.seg (startAt offsets i).toNat (f i))
    {ws : List Val} (hw : ws.length = N)
    (hget : ∀ i, i < N → ws[i]? = some (.list (d.seg (startAt offsets i).toNat (f i)))) :
    Cuts f N (next.seg 0 next.len) ws := by
  refine ⟨hw, by rw [seg_length, hl], fun i hi => ?_⟩
  have h3 := sumTo_mono (f := f) (show i + 1 ≤ N by omega)
  rw [sumTo_succ] at h3
  rw [hget i hi, seg_sub _ (by omega), ← hv i hi, Nat.zero_add]

/-- The lists of the index. -/
theorem asslice_lists {bools miss : Bool} {n : Nat} {c : Content} (hg : c.Good)
    (hr : RaggedIndex bools miss (n + 1) c) (hx : isIndex c = false) {f : Nat}
    (hf : c.rank ≤ f + 1) :
    ∃ (offsets : List Int) (d : Content), offsets.length = c.len + 1 ∧
      (∀ i (h : i + 1 < offsets.length), offsets[i] ≤ offsets[i + 1]) ∧
      (∀ o ∈ offsets, 0 ≤ o ∧ o ≤ d.len) ∧ d.Good ∧ d.rank ≤ f ∧ RaggedIndex bools miss n d ∧
      assliceF (f + 1) c = listAsslice (assliceF f) offsets d ∧
      ∀ i, i < c.len → c.valD i
        = .list (d.seg (startAt offsets i).toNat (pairLen offsets (offsets.drop 1) i)) := by
  cases hr with
  | @listOffset _ _ p offsets d h1 h2 h3 =>
    obtain ⟨hl, hd, hp⟩ := good_listOffset.mp hg
    refine ⟨offsets, d, by simp only [len]; omega, fun i hi => (hp i hi).le, h1, hd,
      by simp only [rank] at hf; omega, h3, rfl, ?_⟩
    intro i hi
    simp only [len] at hi
    rw [valD_listOffset hg (by omega), wrapList_plain h2]
    simp only [startAt, pairLen, List.getElem?_drop]
    rw [List.getElem?_eq_getElem (show 1 + i < offsets.length by omega),
      List.getElem?_eq_getElem (show i < offsets.length by omega)]
    simp only [Option.getD_some, Nat.add_comm 1 i]
  | @listArray _ _ p starts stops d h1 h2 =>
    obtain ⟨hl, hd, hp⟩ := good_listArray.mp hg
    obtain ⟨offs, c', e1, e2, e3⟩ := listParts_ok hg rfl
    have hbound := e2.bound
    obtain ⟨d', hd', hgt⟩ := e2.src
    simp only [children, List.mem_singleton] at hd'
    subst hd'
    obtain rfl := e2.offs_eq
    refine ⟨offsTo (listArray p starts stops d').lens (listArray p starts stops d').len, c',
      by rw [offsTo_length], ?_, ?_, e2.good, by omega,
      Gathered.closed (RaggedIndex.closed bools) hd hgt (miss, n) h2, ?_, ?_⟩
    · intro i hi
      rw [offsTo_getElem, offsTo_getElem, sumTo_succ]; omega
    · intro o ho
      obtain ⟨i, hi, rfl⟩ := List.getElem_of_mem ho
      rw [offsTo_getElem]
      rw [offsTo_length] at hi
      have := sumTo_mono (f := (listArray p starts stops d').lens)
        (show i ≤ (listArray p starts stops d').len by omega)
      omega
    · simp only [assliceF]
      rw [e1, bind_ok]
    · intro i hi
      rw [e2.vals i hi]
      simp only [params]
      rw [wrapList_plain h1]
      congr 2
      · simp only [startAt]
        rw [List.getElem?_eq_getElem (by rw [offsTo_length]; omega), offsTo_getElem]; rfl
      · simp only [pairLen, List.getElem?_drop]
        rw [List.getElem?_eq_getElem (show i < _ by rw [offsTo_length]; omega),
          List.getElem?_eq_getElem (show 1 + i < _ by rw [offsTo_length]; omega), offsTo_getElem,
          offsTo_getElem, Nat.add_comm 1 i]
        simp only [Option.getD_some]
        rw [sumTo_diff]; rfl
  | index h1 => rw [hx] at h1; exact Bool.noConfusion h1

theorem toIndexedOption_good {c : Content} (h : c.Good) (ho : c.isOption = true) :
    ∃ idx, c.toIndexedOption = ok (indexedOption c.params idx c.inner) ∧
      (indexedOption c.params idx c.inner).Good ∧ idx.length = c.len ∧
      ∀ i, i < c.len → (indexedOption c.params idx c.inner).valD i = c.valD i := by
  obtain ⟨b, idx, g1, g2, g3, _⟩ := innerIndex_ok h.wf (isOption_imp ho)
  have hg : (indexedOption c.params idx c.inner).Good := by
    refine good_indexedOption.mpr ⟨inner_good h, fun i hi => ?_⟩
    obtain ⟨_, h2⟩ := val_inner_pick h (isOption_imp ho) (i := i) (by omega)
    have h3 := g3 i hi
    by_cases hneg : idx[i] < 0
    · omega
    · rw [if_neg hneg] at h3
      have := h2 _ h3.symm
      omega
  refine ⟨idx, ?_, hg, g2, ?_⟩
  · cases c <;> simp only [isOption, Bool.false_eq_true] at ho <;>
      simp only [innerIndex, bind_eq_ok, ok.injEq, Option.some.injEq, Prod.mk.injEq] at g1 <;>
      simp only [toIndexedOption, params, inner]
    case indexedOption => obtain ⟨_, rfl, _⟩ := g1; rfl
    all_goals
      obtain ⟨x, hx, _, rfl, _⟩ := g1
      rw [hx]; rfl
  · intro i hi
    obtain ⟨h1, _⟩ := val_inner_pick h (isOption_imp ho) hi
    rw [valD_indexedOption hg (by omega), h1, ← g3 i (by omega)]
    split <;> rfl

theorem seg_same {c d : Content} {s n : Nat} (h : ∀ i, i < n → c.valD (s + i) = d.valD (s + i)) :
    c.seg s n = d.seg s n := by
  apply List.map_congr_left
  intro k hk
  exact h k (List.mem_range.mp hk)

/-- The integers of an index. -/
theorem asslice_items {f : Nat} :
    ∀ c : Content, c.Good → c.rank ≤ f → RaggedIndex false false 0 c →
      ∃ idx : List Int, assliceF f c = ok (.array idx false) ∧ c.seg 0 c.len = idx.map intVal := by
  induction f with
  | zero =>
    intro c _ hf
    have : 0 < c.rank := by cases c <;> simp [rank]
    omega
  | succ f ih =>
    intro c hg hf hr
    cases hr with
    | empty => exact ⟨[], rfl, by simp [len, seg]⟩
    | @numpy _ p dt data h1 =>
      simp only [IndexItems, Bool.false_eq_true, if_false] at h1
      refine ⟨data.map Atom.toInt, by simp only [assliceF]; rw [if_pos h1.1], ?_⟩
      apply List.ext_getElem (by simp [len])
      intro i hi _
      rw [seg_length] at hi
      simp only [len] at hi
      rw [seg_getElem, Nat.zero_add, valD_numpy hi, List.getElem_map, List.getElem_map]
      obtain ⟨x, hx⟩ := h1.2 _ (List.getElem_mem hi)
      rw [hx]; rfl
    | index h1 h2 =>
      cases c <;> simp only [isIndex, Bool.false_eq_true] at h1
      case indexed p index d =>
        obtain ⟨hd, _⟩ := good_indexed.mp hg
        obtain ⟨c', e1, e2, e3, e4, e5, e6⟩ := project_indexed hg
        obtain ⟨idx, i1, i2⟩ := ih c' e2 (by simp only [rank] at hf; omega)
          (Gathered.closed (RaggedIndex.closed false) hd e6 (false, 0) (h2 d (by simp [children])))
        refine ⟨idx, ?_, ?_⟩
        · simp only [assliceF]; rw [e1, bind_ok, i1]
        · rw [← i2, e4]
          exact seg_same (fun i hi => by simp only [Nat.zero_add]; rw [e5 i hi])
      case unmasked p d =>
        obtain ⟨idx, i1, i2⟩ := ih d (good_unmasked.mp hg) (by simp only [rank] at hf; omega)
          (h2 d (by simp [children]))
        exact ⟨idx, by simp only [assliceF]; exact i1, i2⟩

/-- Missing integers. -/
theorem asslice_missing {f : Nat} {c : Content} (hg : c.Good) (hf : c.inner.rank ≤ f)
    (hc : ∃ p index d, c = indexedOption p index d) (hr : RaggedIndex false false 0 c.inner) :
    ∃ s, assliceF (f + 1) c = ok s ∧ Shows true 0 s (c.seg 0 c.len) ∧ NotMask s := by
  have ho : c.isOption = true := by obtain ⟨p, index, d, rfl⟩ := hc; rfl
  obtain ⟨numnull, h1, hnum⟩ := nextcarryOutindex_ok hg (.inl hc)
  obtain ⟨nc, h2, h3, h4, h5⟩ := carry_good (inner_good hg) false (shown_good hg ho)
  obtain ⟨idx, i1, i2⟩ := asslice_items (f := f) nc h3 (by
    simp only [Bool.toNat_false] at h4; omega)
    (carry_closed (RaggedIndex.closed false) (inner_good hg) (shown_good hg ho) h2 (false, 0) hr)
  have hnl : nc.len = cnt c.pickI c.len := by rw [h5.1]; rfl
  have hil : idx.length = cnt c.pickI c.len := by
    have := congrArg List.length i2
    simpa [hnl] using this.symm
  refine ⟨.missing (outIndex c.pickI c.len) (.array idx false), ?_, .missing ⟨by simp, hil, ?_, ?_⟩,
    fun idx h => JSlice.noConfusion h⟩
  · obtain ⟨p, index, d, rfl⟩ := hc
    simp only [assliceF]
    rw [h1, bind_ok]
    simp only [inner] at h2
    simp only
    rw [h2, bind_ok, i1, bind_ok]
  · intro j hj hq
    rw [seg_getElem?, if_pos hj, Nat.zero_add, hidden_valD hg (isOption_imp ho) hj hq]
  · intro j hj hq
    have hlt : cnt c.pickI j < cnt c.pickI c.len := by
      have := cnt_mono (q := c.pickI) (show j + 1 ≤ c.len by omega)
      rw [cnt_succ, if_pos hq] at this; omega
    refine ⟨idx[cnt c.pickI j]'(by omega), List.getElem?_eq_getElem (by omega), ?_⟩
    rw [seg_getElem?, if_pos hj, Nat.zero_add, ← shown_valD hg (isOption_imp ho) h5 hj hq]
    have := congrArg (fun l => l[cnt c.pickI j]?) i2
    simp only [seg_getElem?, hnl, if_pos hlt, Nat.zero_add, List.getElem?_map,
      List.getElem?_eq_getElem (show cnt c.pickI j < idx.length by omega), Option.map_some] at this
    exact this

theorem asslice_ok {f : Nat} :
    ∀ (miss : Bool) (n : Nat) (c : Content), c.Good → c.rank ≤ f → RaggedIndex false miss n c →
      ∃ s, assliceF f c = ok s ∧ Shows miss n s (c.seg 0 c.len) ∧ NotMask s := by
  induction f with
  | zero =>
    intro miss n c _ hf
    have : 0 < c.rank := by cases c <;> simp [rank]
    omega
  | succ f ih =>
    intro miss n c hg hf hr
    by_cases hx : isIndex c = true
    · have hch : ∀ d ∈ c.children, RaggedIndex false miss n d := by
        cases hr with
        | index _ h2 => exact h2
        | missing _ h1 => cases c <;> simp [canMiss] at h1 <;> simp [isIndex] at hx
        | _ => simp [isIndex] at hx
      cases c <;> simp only [isIndex, Bool.false_eq_true] at hx
      case indexed p index d =>
        obtain ⟨hd, _⟩ := good_indexed.mp hg
        obtain ⟨c', e1, e2, e3, e4, e5, e6⟩ := project_indexed hg
        obtain ⟨s, i1, i2, i3⟩ := ih miss n c' e2 (by simp only [rank] at hf; omega)
          (Gathered.closed (RaggedIndex.closed false) hd e6 (miss, n) (hch d (by simp [children])))
        refine ⟨s, ?_, ?_, i3⟩
        · simp only [assliceF]; rw [e1, bind_ok, i1]
        · rw [e4] at i2
          rw [seg_same (d := c') (fun i hi => by simp only [Nat.zero_add]; rw [e5 i hi])]
          exact i2
      case unmasked p d =>
        obtain ⟨s, i1, i2, i3⟩ := ih miss n d (good_unmasked.mp hg)
          (by simp only [rank] at hf; omega) (hch d (by simp [children]))
        exact ⟨s, by simp only [assliceF]; exact i1, i2, i3⟩
    · have hx : isIndex c = false := by simpa using hx
      cases n with
      | zero =>
        by_cases hm : canMiss c = true
        · have ho : c.isOption = true := by
            cases c <;> simp only [canMiss, Bool.false_eq_true] at hm <;> rfl
          obtain ⟨rfl, hi⟩ : miss = true ∧ RaggedIndex false false 0 c.inner := by
            cases hr with
            | missing _ _ h2 =>
              refine ⟨rfl, h2 _ ?_⟩
              cases c <;> simp only [canMiss, Bool.false_eq_true] at hm <;>
                simp [children, inner]
            | index h1 => rw [hx] at h1; exact Bool.noConfusion h1
            | _ => simp [canMiss] at hm
          by_cases hio : ∃ p index d, c = indexedOption p index d
          · exact asslice_missing hg (by have := inner_rank (isOption_imp ho); omega) hio hi
          · obtain ⟨idx, e1, e2, e3, e4⟩ := toIndexedOption_good hg ho
            have hr1 : c.inner.rank + 2 ≤ c.rank := by
              cases c <;> simp only [canMiss, Bool.false_eq_true] at hm <;> simp [inner, rank]
            have hstep : assliceF (f + 1) c = c.toIndexedOption >>= fun c' => assliceF f c' := by
              cases c <;> simp only [canMiss, Bool.false_eq_true] at hm
              · exact absurd ⟨_, _, _, rfl⟩ hio
              · rfl
              · rfl
            have hf' : 2 ≤ f := by
              have : 0 < c.inner.rank := by cases c.inner <;> simp [rank]
              omega
            obtain ⟨f', rfl⟩ : ∃ f', f = f' + 1 := ⟨f - 1, by omega⟩
            obtain ⟨s, i1, i2, i3⟩ := asslice_missing (f := f') e2
              (show c.inner.rank ≤ f' by omega)
              ⟨_, _, _, rfl⟩ hi
            refine ⟨s, by rw [hstep, e1, bind_ok, i1], ?_, i3⟩
            rw [show (indexedOption c.params idx c.inner).len = c.len from e3,
              seg_same (d := c) (fun i hi => by simp only [Nat.zero_add]; rw [e4 i hi])] at i2
            exact i2
        · have hr' : RaggedIndex false false 0 c := by
            cases hr with
            | empty => exact .empty
            | numpy h => exact .numpy h
            | missing _ h1 => rw [h1] at hm; exact absurd rfl hm
            | index h1 => rw [hx] at h1; exact Bool.noConfusion h1
          obtain ⟨idx, i1, i2⟩ := asslice_items c hg hf hr'
          exact ⟨_, i1, by rw [i2]; exact .array, fun idx h => by simp at h⟩
      | succ n =>
        obtain ⟨offsets, d, h1, h2, h3, h4, h5, h6, h7, h8⟩ := asslice_lists hg hr hx hf
        obtain ⟨next, g1, g2, g3, g4, g5, g6⟩ := asslice_view h1 h2 h3 h4
        obtain ⟨s, i1, i2, i3⟩ := ih miss n next g1 (by omega)
          (g3 (RaggedIndex.closed false) (miss, n) h6)
        refine ⟨_, by rw [h7, (g6 _).1 s i1 i3], .jagged i2 ?_, fun idx h => JSlice.noConfusion h⟩
        exact cuts_view g4 g5 (by simp) (fun i hi => by
          rw [seg_getElem?, if_pos hi, Nat.zero_add, h8 i hi])

/-! ### The slice applied -/

theorem nextJagged_ok {b : Bool} {n : Nat} {s : JSlice} {ws : List Val} (h : Shows b n s ws) :
    ∀ (starts stops : List Int) (c : Content), c.Good → Ragged b n c →
      SliceAt b n ws starts stops → JagOk b n ws (nextJagged s) starts stops c := by
  have fuel : ∀ c : Content, c.rank + c.hgt ≤ 2 * c.rank := by
    intro c
    have := hgt_le_rank c
    omega
  induction h with
  | @array b idx fb =>
    intro starts stops c hc hr hs
    exact jaggedF_ok (jaggedArray_ok b idx) _ starts stops c hc (fuel c) hr hs
  | @missing q N idx fb ws hw =>
    intro starts stops c hc hr hs
    exact jaggedF_ok (jaggedMissing_ok hw (k := nextJagged (.array idx fb)) (fun _ _ _ _ _ => rfl))
      _ starts stops c hc (fuel c) hr hs
  | jagged h1 h2 ih =>
    intro starts stops c hc hr hs
    exact jaggedF_ok (jaggedDescend_ok h2 ih) _ starts stops c hc (fuel c) hr hs

theorem getitemSlice_ok {b : Bool} {n : Nat} {s : JSlice} {ws : List Val}
    (h : Shows b (n + 1) s ws) {c : Content} (hc : c.Good) (hr : Ragged b n c) :
    (getitemSlice s c).Tot (Spec.jagged (n + 1) ws (c.seg 0 c.len)).isSome
      (fun it => ∃ v w, it.toVal = ok v ∧ Spec.jagged (n + 1) ws (c.seg 0 c.len) = some w ∧
        Alike v w) := by
  cases h with
  | @jagged _ _ f N s ws' _ h1 h2 =>
    unfold getitemSlice
    simp only [offsTo_length, Nat.add_sub_cancel]
    by_cases hN : N = c.len
    · subst hN
      rw [if_neg (by simp), Nat.mul_one, expand_ok (by rw [offsTo_length]) (by rw [alloc_length])
        (by rw [alloc_length]), bind_ok]
      have key := nextJagged_ok h1 _ _ c hc hr (h2.sliceAt (b := b) (n := n))
      obtain ⟨_, q2, _, _⟩ := offsTo_make (f := f) (N := c.len) (l := ws'.length)
        (by rw [h2.total])
      have hz : ∀ i, i < c.len → ∃ v, (ws.zip (c.seg 0 c.len))[i]? = some (v, c.valD i) ∧
          v.items = Awk.ixAt ws' (makeStarts (offsTo f c.len)) (makeStops (offsTo f c.len)) i := by
        intro i hi
        obtain ⟨v, e1, e2⟩ := h2.ixAt hi
        refine ⟨v, ?_, e2⟩
        rw [List.getElem?_zip_eq_some]
        exact ⟨e1, by rw [seg_getElem?, if_pos hi, Nat.zero_add]⟩
      refine (key.mono ?_ (fun _ h => h)).bind (fun down hdn => ?_)
      · intro hsome
        refine ⟨q2, fun i hi => ?_⟩
        obtain ⟨v, e1, e2⟩ := hz i hi
        rw [Spec.jagged, if_pos (by rw [h2.len]; simp), Option.isSome_map] at hsome
        have := mapM_isSome hsome _ (List.mem_of_getElem? e1)
        simpa [e2] using this
      · obtain ⟨_, hsel⟩ := hdn
        have hle := hsel.len_le
        have hol : (regular {} down c.len 1).len ≠ 0 := by
          simp only [len]
          split
          · exact Nat.ne_of_gt (Nat.div_pos hle (by omega))
          · simp
        rw [if_neg hol]
        obtain ⟨it, v, g1, g2, g3⟩ := getitemAtNowrap_good (c := regular {} down c.len 1)
          (good_regular.mpr hsel.good) (i := 0) (by omega)
        rw [g1]
        refine R.Tot.ok ⟨v, _, g2, ?_, g3⟩
        rw [valD_regular hsel.good (by omega), wrapList_default, Spec.jagged,
          if_pos (by rw [h2.len]; simp), Nat.zero_mul]
        rw [mapM_of_get? (ys := down.seg 0 c.len) (by simp [h2.len]) (fun i hi => ?_)]
        · rfl
        · have hi : i < c.len := by simpa [h2.len] using hi
          obtain ⟨v, e1, e2⟩ := hz i hi
          refine ⟨_, _, e1, by rw [seg_getElem?, if_pos hi, Nat.zero_add], ?_⟩
          rw [e2]; exact hsel.val i hi
    · rw [if_pos hN]
      refine R.Tot.err ?_
      rw [Spec.jagged, if_neg (by rw [h2.len]; simpa using hN)]
      simp

end Content
end Awk
