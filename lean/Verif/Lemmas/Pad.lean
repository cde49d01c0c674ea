import Verif.Lemmas.Rpad
/-
`pad_none`.
-/

namespace Awk
open R

namespace R

/-- Every result satisfies `P`; under `k` nothing is undefined; under `h` there is a result. -/
structure Lax (x : R α) (k h : Prop) (P : α → Prop) : Prop where
  ok : ∀ a, x = ok a → P a
  noub : k → x ≠ ub
  total : h → IsOk x

theorem Lax.bind {x : R α} {k h : Prop} {P : α → Prop} {f : α → R β} {Q : β → Prop}
    (hx : Lax x k h P) (hf : ∀ a, P a → Lax (f a) k h Q) : Lax (x >>= f) k h Q := by
  cases x with
  | ok a => exact hf a (hx.ok a rfl)
  | err e => exact ⟨fun a h => by simp at h, fun _ h => by simp at h,
      fun hh => by obtain ⟨a, ha⟩ := hx.total hh; simp at ha⟩
  | ub => exact ⟨fun a h => by simp at h, fun hk _ => hx.noub hk rfl,
      fun hh => by obtain ⟨a, ha⟩ := hx.total hh; simp at ha⟩

theorem Lax.mono {x : R α} {k k' h h' : Prop} {P Q : α → Prop} (hx : Lax x k h P) (hk : k' → k)
    (hh : h' → h) (hPQ : ∀ a, P a → Q a) : Lax x k' h' Q :=
  ⟨fun a ha => hPQ a (hx.ok a ha), fun h => hx.noub (hk h), fun h => hx.total (hh h)⟩

theorem Lax.pure {a : α} {k h : Prop} {P : α → Prop} (hp : P a) : Lax (.ok a) k h P :=
  ⟨fun b hb => by simp only [R.ok.injEq] at hb; exact hb ▸ hp, fun _ h => by simp at h, fun _ => ⟨a, rfl⟩⟩

theorem Lax.err {e : String} {k h : Prop} {P : α → Prop} (hh : ¬ h) : Lax (.err e) k h P :=
  ⟨fun b hb => by simp at hb, fun _ h => by simp at h, fun h => absurd h hh⟩

theorem Lax.of_eq {x : R α} {a : α} {k h : Prop} {P : α → Prop} (hx : x = .ok a) (hp : P a) :
    Lax x k h P := by rw [hx]; exact .pure hp

end R

theorem mapR_lax {f : α → R β} {l : List α} {k h : Prop} {P : α → β → Prop}
    (hf : ∀ a ∈ l, (f a).Lax k h (P a)) : (mapR f l).Lax k h (fun l' => List.Forall₂ P l l') := by
  induction l with
  | nil => simp only [mapR]; exact .pure .nil
  | cons a l ih =>
    simp only [mapR]
    refine (hf a List.mem_cons_self).bind (fun b hb => ?_)
    refine (ih (fun a ha => hf a (List.mem_cons_of_mem _ ha))).bind (fun bs hbs => ?_)
    exact .pure (.cons hb hbs)

theorem pad_wrapList (t : Nat) (clip : Bool) (p : Params) (vs : List Val) :
    (wrapList p vs).pad t clip = wrapList p (Val.padList t clip vs) := by
  simp [Val.pad, withItems_wrapList]

theorem padList_length (t : Nat) (clip : Bool) (vs : List Val) :
    (Val.padList t clip vs).length = max (if clip then min t vs.length else vs.length) t := by
  cases clip <;> simp [Val.padList] <;> omega

theorem padList_long {t : Nat} {vs : List Val} (h : t ≤ vs.length) :
    Val.padList t false vs = vs := by
  simp [Val.padList, Nat.sub_eq_zero_of_le h]

namespace Content

/-- The value that an index buffer entry shows. -/
def entry (d : Content) (x : Int) : Val := if x < 0 then .null else d.valD x.toNat

theorem seg_take (d : Content) (s n t : Nat) : (d.seg s n).take t = d.seg s (min t n) := by
  simp only [seg, ← List.map_take, List.take_range]

theorem padIdx_entries {d : Content} {lo : Int} {m t : Nat} {clip : Bool} (h : m = 0 ∨ 0 ≤ lo) :
    (padIdx lo (if clip then min t m else m) t).map d.entry
      = Val.padList t clip (d.seg lo.toNat m) := by
  have hseg : ∀ k, k ≤ m → ((List.range k).map (fun (j : Nat) => lo + (j : Int))).map d.entry
      = d.seg lo.toNat k := by
    intro k hk
    simp only [seg, List.map_map]
    apply List.map_congr_left
    intro j hj
    simp only [List.mem_range] at hj
    have h0 : 0 ≤ lo := by omega
    simp only [Function.comp, entry]
    rw [if_neg (by omega)]
    congr 1; omega
  unfold padIdx Val.padList
  rw [List.map_append, List.map_replicate]
  have he : d.entry (-1) = .null := by simp [entry]
  rw [he, seg_length]
  cases clip
  · simp only [Bool.false_eq_true, if_false]; rw [hseg m (Nat.le_refl _)]
  · simp only [if_true]
    rw [hseg _ (Nat.min_le_right _ _), seg_take, show t - min t m = t - m by omega]

/-- The padded content of an array of lists. -/
theorem padAll_simplify {d : Content} (hd : d.Good) (p : Params) {lo : Nat → Int} {m : Nat → Nat}
    {t n : Nat} {clip : Bool}
    (hb : ∀ i, i < n → m i = 0 ∨ (0 ≤ lo i ∧ lo i + (m i : Int) ≤ d.len)) :
    ∃ next, indexedSimplify true p (padAll lo (fun i => if clip then min t (m i) else m i) t n) d
        = ok next ∧ next.Good ∧
      next.len = sumTo (fun i => max (if clip then min t (m i) else m i) t) n ∧
      ∀ i, i < n → next.seg (sumTo (fun i => max (if clip then min t (m i) else m i) t) i)
          (max (if clip then min t (m i) else m i) t)
        = Val.padList t clip (d.seg (lo i).toNat (m i)) := by
  set K : Nat → Nat := fun i => if clip then min t (m i) else m i with hK
  have hKm : ∀ i, K i ≤ m i := by
    intro i; simp only [hK]; split <;> omega
  obtain ⟨next, h1, h2, h3, h4⟩ := indexedSimplify_good (p := p) (index := padAll lo K t n) hd (by
    intro i hi
    have hmem := List.getElem_mem hi
    generalize (padAll lo K t n)[i] = x at hmem ⊢
    simp only [padAll, List.mem_flatten, List.mem_map, List.mem_range] at hmem
    obtain ⟨_, ⟨j, hj, rfl⟩, hx⟩ := hmem
    simp only [padIdx, List.mem_append, List.mem_map, List.mem_range, List.mem_replicate] at hx
    rcases hx with ⟨k, hk, rfl⟩ | ⟨_, rfl⟩
    · have := hKm j
      have := hb j hj
      omega
    · omega)
  refine ⟨next, h1, h2, by rw [h3, padAll_length], ?_⟩
  intro i hi
  rw [← padIdx_entries (d := d) (lo := lo i) (m := m i) (t := t) (clip := clip)
    ((hb i hi).imp_right (fun h => h.1))]
  apply List.ext_getElem
  · simp [hK]
  · intro k g1 g2
    have hk : k < (padIdx (lo i) (K i) t).length := by
      simpa only [List.length_map] using g2
    have hget := flatten_map_get (fun i => padIdx (lo i) (K i) t) hi hk
    simp only [padIdx_length] at hget
    change (padAll lo K t n)[sumTo (fun i => max (K i) t) i + k]? = _ at hget
    rw [List.getElem?_eq_getElem hk] at hget
    obtain ⟨hlt, he⟩ := List.getElem?_eq_some_iff.mp hget
    rw [seg_getElem, h4 _ hlt, he, List.getElem_map]
    rfl

/-- Nodes on which `pad_none` without clipping never reads outside a buffer: no options, no
indexes, and no empty ListArray. -/
def PlainNode : Content → Prop
  | listArray _ starts _ _ => starts ≠ []
  | indexed .. | indexedOption .. | byteMasked .. | bitMasked .. => False
  | _ => True

theorem not_hasAxis_empty {u : Bool} {a : Nat} {p : Params} : ¬ HasAxis u false a (empty p) := by
  intro h
  cases h with
  | here h => cases h
  | inside h => cases h
  | thru h => cases h
  | empty h => cases h

/-- `rpad_and_clip` of lists, given their positions. -/
theorem pad_regular {c d : Content} {p : Params} {lo : Nat → Int} {m : Nat → Nat} {t n : Nat}
    (hd : d.Good) (hn : c.len = n)
    (hv : ∀ i, i < n → c.valD i = wrapList p (d.seg (lo i).toNat (m i)))
    (hb : ∀ i, i < n → m i = 0 ∨ (0 ≤ lo i ∧ lo i + (m i : Int) ≤ d.len)) :
    ∃ c', (indexedSimplify true {} (padAll lo (fun i => min t (m i)) t n) d >>= fun next =>
        ok (regular p next t n)) = ok c' ∧
      MapsG True c c' (Val.mapAxis true (Val.pad t true) 1) := by
  obtain ⟨next, h1, h2, h3, h4⟩ := padAll_simplify hd {} (t := t) (clip := true) hb
  simp only [if_true] at h1 h3 h4
  have hs : ∀ i, sumTo (fun i => max (min t (m i)) t) i = i * t := by
    intro i
    rw [sumTo_congr (g := fun _ => t) (fun j _ => by omega), sumTo_const]
  rw [h1, bind_ok]
  have hlen : (regular p next t n).len = n := by
    simp only [len]
    split
    · rw [h3, hs, Nat.mul_div_cancel _ (by omega)]
    · rfl
  refine ⟨_, rfl, ⟨good_regular.mpr h2, by omega, ?_⟩, fun _ => by omega⟩
  intro i hi
  rw [valD_regular h2 (by omega), hv i (by omega), Val.mapAxis_one, pad_wrapList, ← h4 i (by omega),
    hs]
  congr 2
  omega

theorem forIn_pair {start stop : Int} {n : Nat} (h : GoodPair start stop n) :
    (stop - start).toNat = 0 ∨ (0 ≤ start ∧ start + ((stop - start).toNat : Int) ≤ n) := by
  rcases h with h | h
  · left; omega
  · right; omega

theorem regularRpadAndClip_maps {p : Params} {c : Content} {size zeros t : Nat}
    (h : (regular p c size zeros).Good) :
    ∃ c', regularRpadAndClip p t size (regular p c size zeros).len c = ok c' ∧
      MapsG True (regular p c size zeros) c' (Val.mapAxis true (Val.pad t true) 1) := by
  have hc := good_regular.mp h
  unfold regularRpadAndClip
  have hk := RegularArray_rpad_and_clip_axis1_ok (n := (regular p c size zeros).len) (t := t)
    (size := size)
  push_cast at hk
  rw [hk, bind_ok]
  refine pad_regular hc rfl (m := fun _ => size) ?_ ?_
  · intro i hi
    rw [valD_regular hc hi]
    congr 2
  · intro i hi
    have := regular_bound hi
    right; push_cast; constructor
    · positivity
    · exact_mod_cast this

theorem listOffset_diff {offsets : List Int} {n : Nat}
    (hp : ∀ i (h : i + 1 < offsets.length), GoodPair offsets[i] offsets[i + 1] n) :
    ∀ i (h : i + 1 < offsets.length), offsets[i + 1] - offsets[i]
      = (((offsets[i + 1]?.getD 0) - (offsets[i]?.getD 0)).toNat : Int) := by
  intro i hi
  have := (hp i hi).le
  simp only [List.getElem?_eq_getElem hi, List.getElem?_eq_getElem (show i < offsets.length by omega),
    Option.getD_some]
  omega

theorem listOffsetRpadAndClip_maps {p : Params} {offsets : List Int} {c : Content} {t : Nat}
    (h : (listOffset p offsets c).Good) :
    ∃ c', listOffsetRpadAndClip p t offsets c = ok c' ∧
      MapsG True (listOffset p offsets c) c' (Val.mapAxis true (Val.pad t true) 1) := by
  obtain ⟨hl, hc, hp⟩ := good_listOffset.mp h
  obtain ⟨n, hn⟩ : ∃ n, offsets.length = n + 1 := ⟨offsets.length - 1, by omega⟩
  unfold listOffsetRpadAndClip
  rw [show offsets.length - 1 = n by omega]
  have hk := ListOffsetArray_rpad_and_clip_axis1_ok (t := t) hn (listOffset_diff hp)
  rw [show ((t : Int) * ((offsets.length : Int) - 1)) = ((t * n : Nat) : Int) by
    rw [hn]; push_cast; ring, hk, bind_ok]
  refine pad_regular hc (by simp [len, hn]) ?_ ?_
  · intro i hi
    rw [valD_listOffset h (by omega)]
    simp [show i < offsets.length by omega, show i + 1 < offsets.length by omega]
  · intro i hi
    have := forIn_pair (hp i (by omega))
    simpa [show i < offsets.length by omega, show i + 1 < offsets.length by omega] using this

theorem listOffsetRpad_maps {p : Params} {offsets : List Int} {c : Content} {t : Nat}
    (h : (listOffset p offsets c).Good) :
    ∃ c', listOffsetRpad p t offsets c = ok c' ∧
      MapsG True (listOffset p offsets c) c' (Val.mapAxis true (Val.pad t false) 1) := by
  obtain ⟨hl, hc, hp⟩ := good_listOffset.mp h
  obtain ⟨n, hn⟩ : ∃ n, offsets.length = n + 1 := ⟨offsets.length - 1, by omega⟩
  unfold listOffsetRpad
  rw [show offsets.length - 1 = n by omega,
    ListOffsetArray_rpad_length_axis1_ok hn (listOffset_diff hp), bind_ok]
  simp only
  rw [ListOffsetArray_rpad_axis1_ok hn (listOffset_diff hp), bind_ok]
  have hb : ∀ i, i < n → ((offsets[i + 1]?.getD 0) - (offsets[i]?.getD 0)).toNat = 0 ∨
      (0 ≤ offsets[i]?.getD 0 ∧ (offsets[i]?.getD 0) +
        (((offsets[i + 1]?.getD 0) - (offsets[i]?.getD 0)).toNat : Int) ≤ c.len) := by
    intro i hi
    have := forIn_pair (hp i (by omega))
    simpa [show i < offsets.length by omega, show i + 1 < offsets.length by omega] using this
  obtain ⟨next, h1, h2, h3, h4⟩ := padAll_simplify hc p (t := t) (clip := false)
    (lo := fun i => offsets[i]?.getD 0) hb
  simp only [Bool.false_eq_true, if_false] at h1 h3 h4
  rw [h1, bind_ok]
  refine ⟨_, rfl, ⟨good_offsTo h2 (by omega), by simp [len, hn], ?_⟩, fun _ => by simp [len, hn]⟩
  intro i hi
  have hi' : i < n := by simpa [len, hn] using hi
  rw [valD_offsTo h2 (by omega) hi', h4 i hi', valD_listOffset h (by omega), Val.mapAxis_one,
    pad_wrapList]
  simp [show i < offsets.length by omega, show i + 1 < offsets.length by omega]

theorem listArrayRpad_maps {p : Params} {starts stops : List Int} {c : Content} {t : Nat}
    (h : (listArray p starts stops c).Good) :
    (listArrayRpad p t starts stops c).Lax (starts ≠ []) (starts ≠ [])
      (fun c' => MapsG True (listArray p starts stops c) c' (Val.mapAxis true (Val.pad t false) 1)) := by
  obtain ⟨hl, hc, hp⟩ := good_listArray.mp h
  unfold listArrayRpad
  by_cases h0 : starts = []
  · subst h0
    have hub : ListArray_min_range [] stops ([] : List Int).length = ub := by
      unfold ListArray_min_range
      rcases hr : rd stops 0 with x | e | _
      · rw [bind_ok, rd_ub.mpr (.inr (by simp))]; rfl
      · simp only [rd] at hr; split at hr <;> (try split at hr) <;> simp at hr
      · rfl
    rw [hub]
    exact ⟨fun a h => by simp at h, fun h => absurd rfl h, fun h => absurd rfl h⟩
  · obtain ⟨n, hn⟩ : ∃ n, starts.length = n + 1 :=
      ⟨starts.length - 1, by have := List.length_pos_iff.mpr h0; omega⟩
    obtain ⟨min, h1, h2⟩ := ListArray_min_range_ok hn hl
    rw [h1, bind_ok]
    split
    · rename_i hlt
      refine .pure ⟨⟨h, Nat.le_refl _, ?_⟩, fun _ => rfl⟩
      intro i hi
      simp only [len] at hi
      rw [valD_listArray h hi (by omega), Val.mapAxis_one, pad_wrapList, padList_long]
      have := h2 i hi
      rw [seg_length]; omega
    · set m : Nat → Nat := fun i => ((stops[i]?.getD 0) - (starts[i]?.getD 0)).toNat with hm
      have hmeq : ∀ i (h : i < starts.length), stops[i] - starts[i] = (m i : Int) := by
        intro i hi
        have := (hp i hi).le
        simp only [hm, List.getElem?_eq_getElem hi,
          List.getElem?_eq_getElem (show i < stops.length by omega), Option.getD_some]
        omega
      rw [ListArray_rpad_and_clip_length_axis1_ok hl hmeq, bind_ok, ListArray_rpad_axis1_ok hl hmeq,
        bind_ok]
      simp only
      have hb : ∀ i, i < starts.length → m i = 0 ∨
          (0 ≤ starts[i]?.getD 0 ∧ (starts[i]?.getD 0) + (m i : Int) ≤ c.len) := by
        intro i hi
        have := forIn_pair (hp i hi)
        simpa [hm, hi, show i < stops.length by omega] using this
      obtain ⟨next, e1, e2, e3, e4⟩ := padAll_simplify hc {} (t := t) (clip := false)
        (lo := fun i => starts[i]?.getD 0) hb
      simp only [Bool.false_eq_true, if_false] at e1 e3 e4
      rw [e1, bind_ok]
      have hg : (listArray p ((List.range starts.length).map
            (fun i => (sumTo (fun i => max (m i) t) i : Int)))
          ((List.range starts.length).map (fun i => (sumTo (fun i => max (m i) t) (i + 1) : Int)))
          next).Good := by
        refine good_listArray.mpr ⟨by simp, e2, fun i hi => .inr ?_⟩
        have hi' : i < starts.length := by simpa using hi
        have hmono := sumTo_mono (f := fun i => max (m i) t) (show i + 1 ≤ starts.length by omega)
        simp only [List.getElem_map, List.getElem_range]
        rw [sumTo_succ] at hmono ⊢
        omega
      refine .pure ⟨⟨hg, by simp [len], ?_⟩, fun _ => by simp [len]⟩
      intro i hi
      simp only [len] at hi
      rw [valD_listArray hg (by simpa using hi) (by simpa using hi)]
      rw [valD_listArray h hi (by omega), Val.mapAxis_one, pad_wrapList]
      simp only [List.getElem_map, List.getElem_range]
      rw [sumTo_diff, Int.toNat_natCast, Int.toNat_natCast, e4 i hi]
      simp [hm, hi, show i < stops.length by omega]

theorem regular_long {p : Params} {c : Content} {size zeros t : Nat}
    (h : (regular p c size zeros).Good) (ht : t < size) :
    MapsG True (regular p c size zeros) (regular p c size zeros)
      (Val.mapAxis true (Val.pad t false) 1) := by
  have hc := good_regular.mp h
  refine ⟨⟨h, Nat.le_refl _, ?_⟩, fun _ => rfl⟩
  intro i hi
  rw [valD_regular hc hi, Val.mapAxis_one, pad_wrapList, padList_long]
  rw [seg_length]; omega

theorem pad_same {t : Nat} {clip : Bool} {vs : List Val} (h : clip = true ∨ vs.length ≤ t) :
    Val.padList t clip vs = Val.padList t true vs := by
  rcases h with rfl | h
  · rfl
  · cases clip
    · simp [Val.padList, List.take_of_length_le h]
    · rfl

theorem recordOfContents_maps {G : Prop} {p : Params} {keys : Option (List String)}
    {cs cs' : List Content} {length : Nat} {keep : Bool} {g : Val → Val} {a : Nat}
    (hg : (record p keys cs length).Good)
    (h : List.Forall₂ (fun c c' => MapsG G c c' (Val.mapAxis keep g a)) cs cs')
    (hG : G → ∀ c ∈ cs, c.len = length) :
    MapsG G (record p keys cs length) (recordOfContents p keys length cs')
      (Val.mapAxis keep g a) := by
  obtain ⟨hlen, hcs⟩ := good_record.mp hg
  have hle : ∀ c' ∈ cs', length ≤ c'.len := by
    intro c' hc'
    obtain ⟨c, hc, hm⟩ := forall₂_mem h hc'
    have := hlen c hc
    have := hm.len_le
    omega
  have heq : G → ∀ c' ∈ cs', c'.len = length := by
    intro hg' c' hc'
    obtain ⟨c, hc, hm⟩ := forall₂_mem h hc'
    rw [hm.exact hg', hG hg' c hc]
  have hfold : ∀ (ds : List Content) (x : Nat),
      (∀ d ∈ ds, ds.foldl (fun m d => min m d.len) x ≤ d.len) ∧
      ds.foldl (fun m d => min m d.len) x ≤ x ∧
      (length ≤ x → (∀ d ∈ ds, length ≤ d.len) → length ≤ ds.foldl (fun m d => min m d.len) x) := by
    intro ds
    induction ds with
    | nil => intro x; simp
    | cons d ds ih =>
      intro x
      obtain ⟨i1, i2, i3⟩ := ih (min x d.len)
      simp only [List.foldl_cons]
      refine ⟨?_, by omega, fun hx hd => ?_⟩
      · intro e he
        rcases List.mem_cons.mp he with rfl | he
        · omega
        · exact i1 e he
      · refine i3 ?_ (fun e he => hd e (List.mem_cons_of_mem _ he))
        have := hd d List.mem_cons_self
        omega
  cases cs' with
  | nil =>
    refine MapsG.record hg (h.imp (fun _ _ h => h.toMaps)) (Nat.le_refl _) (by simp) (fun _ => rfl)
  | cons d ds =>
    obtain ⟨i1, i2, i3⟩ := hfold ds d.len
    have h3 := i3 (hle d List.mem_cons_self) (fun e he => hle e (List.mem_cons_of_mem _ he))
    refine MapsG.record hg (h.imp (fun _ _ h => h.toMaps)) h3 ?_ ?_
    · intro e he
      rcases List.mem_cons.mp he with rfl | he
      · exact i2
      · exact i1 e he
    · intro hg'
      have := heq hg' d List.mem_cons_self
      omega

/-- The option branch of `rpad` at the axis. -/
theorem rpad_option_lax {c : Content} {f : Content → R Content} {F : Val → Val} {kk hh : Prop}
    (h : c.Good)
    (hk : (∃ p index d, c = indexedOption p index d) ∨ (∃ p mask vw d, c = byteMasked p mask vw d))
    (hF : F .null = .null)
    (hf : ∀ next, next.Good → next.rank ≤ c.inner.rank → Gathered next c.inner →
      (f next).Lax kk hh (fun out => Maps next out F)) :
    (c.bytemask >>= fun mask =>
      IndexedOptionArray_rpad_and_clip_mask_axis1 (alloc mask.length) mask mask.length
        >>= fun index' =>
      c.project >>= fun c' => f c' >>= fun next =>
      indexedSimplify true {} index' next).Lax kk hh (fun c' => MapsG True c c' F) := by
  have ho : c.isOption = true := by
    rcases hk with ⟨p, index, d, rfl⟩ | ⟨p, mask, vw, d, rfl⟩ <;> rfl
  obtain ⟨bm, h1, h2, h3⟩ := bytemask_ok h.wf ho
  rw [h1, bind_ok]
  have hk1 := rpad_mask_ok (bm := bm) (q := c.pickI) (by
    intro i hi
    rw [h3 i hi]; simp [pickI])
  rw [hk1, bind_ok, h2]
  have hproj : c.project = c.inner.carry false c.shown := by
    rcases project_eq h.wf ho h.rd with ⟨p, d, rfl⟩ | hp
    · rcases hk with ⟨p, index, d, h⟩ | ⟨p, mask, vw, d, h⟩ <;> cases h
    · exact hp
  obtain ⟨next, g1, g2, g3, g4⟩ := carry_good (inner_good h) false (shown_good h ho)
  rw [hproj, g1, bind_ok]
  refine (hf next g2 (by simpa using g3) (.inr ⟨_, _, shown_good h ho, g1⟩)).bind
    (fun out hm => ?_)
  obtain ⟨c', e1, e2, e3⟩ := outIndex_simplify h (isOption_imp ho) hF g4 hm
  exact .of_eq e1 ⟨e3, fun _ => e2⟩

theorem rpadF_ok {t : Nat} {clip : Bool} {f a : Nat} {c : Content} (h : c.Good) (hr : c.rank ≤ f)
    (ha : 1 ≤ a) :
    (rpadF t clip f a c).Lax (clip = true ∨ AllNodes PlainNode c)
      ((clip = true ∨ AllNodes PlainNode c) ∧ HasAxis false false a c)
      (fun c' => MapsG (AllNodes TrimmedNode c) c c' (Val.mapAxis true (Val.pad t clip) a)) := by
  induction f generalizing a c with
  | zero => exfalso; cases c <;> simp [rank] at hr
  | succ f ih =>
    have hnull := Val.mapAxis_null true (Val.pad t clip) a
    obtain ⟨b, rfl⟩ : ∃ b, a = b + 1 := ⟨a - 1, by omega⟩
    have hplain : ∀ {c d : Content}, d ∈ c.children → (clip = true ∨ AllNodes PlainNode c) →
        (clip = true ∨ AllNodes PlainNode d) := fun hd hp => hp.imp_right (fun h => allNodes_child h hd)
    cases c <;> simp only [rpadF, rank] at hr ⊢
    case empty p => exact .err (fun h => not_hasAxis_empty h.2)
    case numpy p dt data => exact .err (fun h => not_hasAxis_numpy h.2)
    case regular p c size zeros =>
      have hc := good_regular.mp h
      by_cases hb : b = 0
      · subst hb
        rw [if_pos rfl]
        split
        · rename_i hs
          obtain ⟨rfl, hs⟩ := hs
          exact .pure ((regular_long h hs).mono (fun _ => trivial))
        · rename_i hs
          obtain ⟨c', h1, h2⟩ := regularRpadAndClip_maps (t := t) h
          refine .of_eq h1 ⟨⟨h2.good, h2.len_le, ?_⟩, fun _ => h2.exact trivial⟩
          intro i hi
          rw [h2.val i hi, valD_regular hc hi, Val.mapAxis_one, Val.mapAxis_one, pad_wrapList,
            pad_wrapList, ← pad_same (clip := clip)]
          rw [seg_length]
          cases clip
          · right
            simp only [true_and, Nat.not_lt] at hs
            exact hs
          · left; rfl
      · rw [if_neg (by omega)]
        refine ((ih hc (a := b) (by omega) (by omega)).mono (hplain (by simp [children]))
          (fun hh => ⟨hplain (by simp [children]) hh.1, hasAxis_below hh.2 (by omega)
          rfl c (by simp [children])⟩) (fun _ h => h)).bind (fun next hm => .pure ?_)
        exact (MapsG.regular (keep := true) hc (by omega) hm).mono
          (fun h => allNodes_child h (by simp [children]))
    case listArray p starts stops c =>
      obtain ⟨hl, hc, hp⟩ := good_listArray.mp h
      split
      · rename_i hclip
        obtain ⟨offs, c', h1, h2, h3⟩ := listParts_ok h rfl
        obtain ⟨d, hd, hga⟩ := h2.src
        have hdc : d = c := by simpa [children] using hd
        subst hdc
        simp only [rank] at h3
        rw [h1, bind_ok]
        simp only
        by_cases hb : b = 0
        · subst hb
          rw [if_pos rfl]
          have hg : (listOffset p offs c').Good := by
            rw [h2.offs_eq]; exact good_offsTo h2.good h2.bound
          obtain ⟨r, e1, e2⟩ := listOffsetRpadAndClip_maps (t := t) hg
          rw [hclip]
          refine .of_eq e1 ((e2.of_eq (by rw [h2.offs_eq]; simp [len]) ?_).mono (fun _ => trivial))
          intro i hi
          rw [h2.vals i hi, h2.offs_eq, valD_offsTo h2.good h2.bound hi]; rfl
        · rw [if_neg (by omega)]
          refine ((ih h2.good (a := b) (by omega) (by omega)).mono (fun _ => .inl hclip)
            (fun hh => ⟨.inl hclip, hga.closed (HasAxis.closed false false) hc _
              (hasAxis_below hh.2 (by omega) rfl d (by simp [children]))⟩) (fun _ h => h)).bind
            (fun next hm => ?_)
          exact .pure ((MapsG.parts (keep := true) h2 (by omega) hm).mono (fun _ => trivial))
      · rename_i hclip
        have hclip : clip = false := by simpa using hclip
        subst hclip
        by_cases hb : b = 0
        · subst hb
          rw [if_pos rfl]
          refine (listArrayRpad_maps h).mono ?_ ?_ (fun _ hm => hm.mono (fun _ => trivial))
          · intro hh
            exact allNodes_self (hh.resolve_left (by simp))
          · intro hh
            exact allNodes_self (hh.1.resolve_left (by simp))
        · rw [if_neg (by omega)]
          refine ((ih hc (a := b) (by omega) (by omega)).mono (hplain (by simp [children]))
            (fun hh => ⟨hplain (by simp [children]) hh.1, hasAxis_below hh.2 (by omega)
            rfl c (by simp [children])⟩) (fun _ h => h)).bind (fun next hm => .pure ?_)
          exact (MapsG.listArray (keep := true) h (by omega) hm).mono (fun _ => trivial)
    case listOffset p offsets c =>
      obtain ⟨hl, hc, hp⟩ := good_listOffset.mp h
      by_cases hb : b = 0
      · subst hb
        rw [if_pos rfl]
        cases clip
        · rw [if_neg (by simp)]
          obtain ⟨c', h1, h2⟩ := listOffsetRpad_maps (t := t) h
          exact .of_eq h1 (h2.mono (fun _ => trivial))
        · rw [if_pos rfl]
          obtain ⟨c', h1, h2⟩ := listOffsetRpadAndClip_maps (t := t) h
          exact .of_eq h1 (h2.mono (fun _ => trivial))
      · rw [if_neg (by omega)]
        refine ((ih hc (a := b) (by omega) (by omega)).mono (hplain (by simp [children]))
          (fun hh => ⟨hplain (by simp [children]) hh.1, hasAxis_below hh.2 (by omega)
          rfl c (by simp [children])⟩) (fun _ h => h)).bind (fun next hm => .pure ?_)
        exact (MapsG.listOffset (keep := true) h (by omega) hm).mono (fun _ => trivial)
    case indexed p index c =>
      have hclip : clip = true ∨ AllNodes PlainNode (indexed p index c) → clip = true :=
        fun hh => hh.resolve_right (fun hp => (allNodes_self hp).elim)
      by_cases hb : b = 0
      · subst hb
        rw [if_pos rfl]
        obtain ⟨c', h1, h2, h3, h4, h5, h6⟩ := project_indexed h
        rw [h1, bind_ok]
        refine (ih h2 (a := 1) (by omega) (by omega)).mono (fun hh => .inl (hclip hh)) (fun hh => ?_)
          (fun _ hm => (hm.of_eq (c := indexed p index c) h4 h5).mono (fun hz => h6.closed Trimmed.closed (good_indexed.mp h).1 0
            (allNodes_child hz (by simp [children]))))
        exact ⟨.inl (hclip hh.1), h6.closed (HasAxis.closed false false) (good_indexed.mp h).1 _
          (hasAxis_child hh.2 rfl c (by simp [children]))⟩
      · rw [if_neg (by omega)]
        refine ((ih (good_indexed.mp h).1 (a := b + 1) (by omega) (by omega)).mono
          (hplain (by simp [children]))
          (fun hh => ⟨hplain (by simp [children]) hh.1, hasAxis_child hh.2
          rfl c (by simp [children])⟩) (fun _ h => h)).bind (fun next hm => .pure ?_)
        exact (MapsG.indexed h hm).mono (fun _ => trivial)
    case indexedOption p index c =>
      have hclip : clip = true ∨ AllNodes PlainNode (indexedOption p index c) → clip = true :=
        fun hh => hh.resolve_right (fun hp => (allNodes_self hp).elim)
      by_cases hb : b = 0
      · subst hb
        rw [if_pos rfl]
        refine (rpad_option_lax (c := indexedOption p index c) h (.inl ⟨_, _, _, rfl⟩) hnull
          (fun next g1 g2 g4 => ?_)).mono (fun h => h) (fun h => h) (fun _ hm => hm.mono (fun _ => trivial))
        simp only [inner] at g2
        refine (ih g1 (a := 1) (by omega) (by omega)).mono (fun hh => .inl (hclip hh)) (fun hh => ?_)
          (fun _ hm => hm.toMaps)
        exact ⟨.inl (hclip hh.1), g4.closed (HasAxis.closed false false) (good_indexedOption.mp h).1 _
          (hasAxis_child hh.2 rfl c (by simp [children]))⟩
      · rw [if_neg (by omega)]
        refine ((ih (good_indexedOption.mp h).1 (a := b + 1) (by omega) (by omega)).mono
          (hplain (by simp [children]))
          (fun hh => ⟨hplain (by simp [children]) hh.1, hasAxis_child hh.2
          rfl c (by simp [children])⟩) (fun _ h => h)).bind (fun next hm => .pure ?_)
        exact (MapsG.indexedOption h hnull hm).mono (fun _ => trivial)
    case byteMasked p mask vw c =>
      have hclip : clip = true ∨ AllNodes PlainNode (byteMasked p mask vw c) → clip = true :=
        fun hh => hh.resolve_right (fun hp => (allNodes_self hp).elim)
      by_cases hb : b = 0
      · subst hb
        rw [if_pos rfl]
        refine (rpad_option_lax (c := byteMasked p mask vw c) h (.inr ⟨_, _, _, _, rfl⟩) hnull
          (fun next g1 g2 g4 => ?_)).mono (fun h => h) (fun h => h) (fun _ hm => hm.mono (fun _ => trivial))
        simp only [inner] at g2
        refine (ih g1 (a := 1) (by omega) (by omega)).mono (fun hh => .inl (hclip hh)) (fun hh => ?_)
          (fun _ hm => hm.toMaps)
        exact ⟨.inl (hclip hh.1), g4.closed (HasAxis.closed false false) (good_byteMasked.mp h).2 _
          (hasAxis_child hh.2 rfl c (by simp [children]))⟩
      · rw [if_neg (by omega)]
        refine ((ih (good_byteMasked.mp h).2 (a := b + 1) (by omega) (by omega)).mono
          (hplain (by simp [children]))
          (fun hh => ⟨hplain (by simp [children]) hh.1, hasAxis_child hh.2
          rfl c (by simp [children])⟩) (fun _ h => h)).bind (fun next hm => .pure ?_)
        exact (MapsG.byteMasked h hnull hm).mono (fun _ => trivial)
    case bitMasked p mask vw length lsb c =>
      have hclip : clip = true ∨ AllNodes PlainNode (bitMasked p mask vw length lsb c) → clip = true :=
        fun hh => hh.resolve_right (fun hp => (allNodes_self hp).elim)
      obtain ⟨bm, h1, h2, h3, h4⟩ := toByteMasked_bit h
      rw [h1, bind_ok]
      refine (ih h3 (a := b + 1) (by simp only [rank]; omega) (by omega)).mono
        (fun hh => .inl (hclip hh)) (fun hh => ?_)
        (fun _ hm => (hm.of_eq (c := bitMasked p mask vw length lsb c) h2 h4).mono (fun hz => .mk trivial (fun d hd =>
          allNodes_child hz (by simpa [children] using hd))))
      exact ⟨.inl (hclip hh.1), .thru rfl (fun d hd =>
        hasAxis_child hh.2 rfl d (by simpa [children] using hd))⟩
    case unmasked p c =>
      have hc := good_unmasked.mp h
      have ih' := (ih hc (a := b + 1) (by omega) (by omega)).mono (hplain (c := unmasked p c)
          (by simp [children]))
          (fun (hh : (clip = true ∨ AllNodes PlainNode (unmasked p c)) ∧
            HasAxis false false (b + 1) (unmasked p c)) => ⟨hplain (by simp [children]) hh.1,
            hasAxis_child hh.2 rfl c (by simp [children])⟩) (fun _ h => h)
      split
      · refine ih'.mono (fun h => h) (fun h => h) (fun c' hm => ?_)
        exact (hm.of_eq (c := unmasked p c) rfl (fun _ _ => rfl)).mono
          (fun hz => allNodes_child hz (by simp [children]))
      · refine ih'.bind (fun next hm => .pure ?_)
        exact (MapsG.unmasked hm).mono (fun hz => allNodes_child hz (by simp [children]))
    case record p keys cs length =>
      obtain ⟨hlen, hcs⟩ := good_record.mp h
      refine (mapR_lax (P := fun c c' => MapsG (AllNodes TrimmedNode (record p keys cs length)) c c'
          (Val.mapAxis true (Val.pad t clip) (b + 1)))
        (fun c hc => (ih (hcs c hc) (a := b + 1) (by have := rank_le_rankAll hc; omega)
          (by omega)).mono (hplain (by simpa [children] using hc))
          (fun hh => ⟨hplain (by simpa [children] using hc) hh.1,
            hasAxis_child hh.2 rfl c (by simpa [children] using hc)⟩)
          (fun _ h => h.mono (fun hz => allNodes_child hz (by simpa [children] using hc))))).bind
        (fun cs' hm => .pure ?_)
      exact recordOfContents_maps h hm (fun hz => allNodes_self hz)
    case union p tags index cs => exact .err (fun h => not_hasAxis_union h.2)

/-- `rpad_axis0`. -/
theorem rpadAxis0_ok {t : Nat} {clip : Bool} {c : Content} (h : c.Good) :
    ∃ c', rpadAxis0 t clip c = ok c' ∧ c'.Good ∧
      (List.range c'.len).map c'.valD = Val.padList t clip ((List.range c.len).map c.valD) := by
  unfold rpadAxis0
  split
  · rename_i hs
    obtain ⟨rfl, hs⟩ := hs
    exact ⟨c, rfl, h, by rw [padList_long]; simpa using Nat.le_of_lt hs⟩
  · rename_i hs
    rw [index_rpad_and_clip_axis0_ok, bind_ok]
    obtain ⟨c', h1, h2, h3, h4⟩ := indexedSimplify_good (p := {}) (index := padIdx 0 (min t c.len) t)
      h (by
        intro i hi
        have hmem := List.getElem_mem hi
        generalize (padIdx 0 (min t c.len) t)[i] = x at hmem ⊢
        simp only [padIdx, List.mem_append, List.mem_map, List.mem_range, List.mem_replicate] at hmem
        rcases hmem with ⟨k, hk, rfl⟩ | ⟨_, rfl⟩ <;> omega)
    refine ⟨c', h1, h2, ?_⟩
    have hent := padIdx_entries (d := c) (lo := 0) (m := c.len) (t := t) (clip := true) (.inr (Int.le_refl _))
    simp only [if_true, Int.toNat_zero] at hent
    have hseg : c.seg 0 c.len = (List.range c.len).map c.valD := by simp [seg]
    rw [hseg] at hent
    rw [pad_same (clip := clip), ← hent]
    · apply List.ext_getElem
      · simp [h3]
      · intro i g1 g2
        have hi : i < (padIdx 0 (min t c.len) t).length := by simpa only [List.length_map] using g2
        simp only [List.getElem_map, List.getElem_range]
        rw [h4 i hi]; rfl
    · cases clip
      · right
        simp only [true_and, Nat.not_lt] at hs
        simpa using hs
      · left; rfl

end Content
end Awk
