import Verif.Lemmas.BcastWith
import Verif.Lemmas.GetitemTop
/-
`ak.zip` and `ak.unzip`.
-/

namespace Awk
open R Spec

namespace Content

theorem getitem_record_node {c : Content} {i : Nat} {a : Content} {j : Nat}
    (h : c.getitemAtNowrap i = ok (.record a j)) : a.isRecord = true := by
  induction c using induct generalizing i with
  | empty p => cases h
  | numpy p dt data => simp [getitemAtNowrap, bind_eq_ok] at h
  | regular p c size zeros ih => simp [getitemAtNowrap, bind_eq_ok] at h
  | listArray p starts stops c ih => simp [getitemAtNowrap, bind_eq_ok] at h
  | listOffset p offsets c ih => simp [getitemAtNowrap, bind_eq_ok] at h
  | indexed p index c ih =>
    simp only [getitemAtNowrap, bind_eq_ok] at h
    obtain ⟨_, _, k, _, h⟩ := h
    cases k with
    | none => cases h
    | some k => exact ih h
  | indexedOption p index c ih =>
    simp only [getitemAtNowrap, bind_eq_ok] at h
    obtain ⟨_, _, k, _, h⟩ := h
    cases k with
    | none => cases h
    | some k => exact ih h
  | byteMasked p mask vw c ih =>
    simp only [getitemAtNowrap, bind_eq_ok] at h
    obtain ⟨_, _, h⟩ := h
    split at h
    · exact ih h
    · cases h
  | bitMasked p mask vw length lsb c ih =>
    simp only [getitemAtNowrap, bind_eq_ok] at h
    obtain ⟨_, _, h⟩ := h
    split at h
    · exact ih h
    · cases h
  | unmasked p c ih => exact ih h
  | record p keys cs length ih =>
    simp only [getitemAtNowrap, ok.injEq, Item.record.injEq] at h
    rw [← h.1]; rfl
  | union p tags index cs ih =>
    simp only [getitemAtNowrap, bind_eq_ok] at h
    obtain ⟨_, _, _, _, ⟨t, k⟩, hck, h⟩ := h
    simp only at h
    clear hck
    induction cs generalizing t with
    | nil => cases h
    | cons c cs ihl =>
      cases t with
      | zero =>
        simp only [getitemAtNth] at h
        split at h
        · cases h
        · exact ih c (by simp) h
      | succ t => exact ihl (fun c hc i => ih c (by simp [hc])) t h

/-- An item that is shown as a list is an array of the items of the list. -/
theorem getitem_list {c : Content} (hg : c.Good) {i : Nat} (hi : i < c.len) {ys : List Val}
    (hv : c.valD i = .list ys) :
    ∃ d, c.getitemAtNowrap i = ok (.array d) ∧ d.toList = ok ys := by
  obtain ⟨it, v, h1, h2, h3⟩ := getitemAtNowrap_good hg hi
  rw [hv] at h3
  have hl : v.isList = true ∧ v.items = ys := by
    rcases h3 with rfl | ⟨h4, _, h5⟩
    · exact ⟨rfl, rfl⟩
    · exact ⟨h4, h5⟩
  cases it with
  | none => simp only [Item.toVal, ok.injEq] at h2; subst h2; cases hl.1
  | scalar a => simp only [Item.toVal, ok.injEq] at h2; subst h2; cases hl.1
  | record a j =>
    exfalso
    have hr := getitem_record_node h1
    cases a <;> first | exact Bool.noConfusion hr | skip
    rename_i keys _ _
    simp only [Item.toVal, Content.val, bind_eq_ok, ok.injEq] at h2
    obtain ⟨vs, _, rfl⟩ := h2
    cases keys <;> exact Bool.noConfusion hl.1
  | array d =>
    refine ⟨d, h1, ?_⟩
    simp only [Item.toVal, bind_eq_ok] at h2
    obtain ⟨vs, h4, h5⟩ := h2
    rw [h4]
    cases hd : d.params.arr <;> rw [hd] at h5 <;> simp only [ok.injEq] at h5 <;> subst h5 <;>
      rw [← hl.2] <;> rfl

theorem bcastItem_list {c : Content} (hg : c.Good) (hi : 0 < c.len) {ys : List Val}
    (hv : c.valD 0 = .list ys) {it : Item} (h : bcastItem c = ok it) :
    ∃ d, it = .array d ∧ d.toList = ok ys := by
  obtain ⟨d, h1, h2⟩ := getitem_list hg hi hv
  unfold bcastItem at h
  rw [if_neg (by omega)] at h
  unfold getitemAt at h
  simp only [Int.lt_irrefl, if_false] at h
  rw [if_neg (by omega), show (0 : Int).toNat = 0 from rfl, h1] at h
  simp only [ok.injEq] at h
  exact ⟨d, h.symm, h2⟩

/-- The row of the packed arrays. -/
theorem pack_row {c : Content} (hg : c.Good) :
    (pack c).Good ∧ (pack c).valD 0 = .list ((List.range c.len).map c.valD) := by
  have hp : (pack c).Good := good_regular.mpr hg
  refine ⟨hp, ?_⟩
  have hl := pack_len c
  unfold pack at hl ⊢
  rw [valD_regular hg (by omega)]
  simp [wrapList, seg]

/-- What an operation that broadcasts to nested lists of any kind returns. -/
theorem bcastAndApply_jagged {a : BcastArgs} (ha : a.right = false)
    {get : Nat → List Content → R (Option (List Content))}
    {done : Nat → List Val → List Val → Prop} {go : Nat → List Val → Prop}
    {W : Nat → Content → Prop} (hW : Fam a.jagged W) {cs : List Content}
    (hget : GetOk W get done go a.records cs.length 1)
    (hnd : ∀ vs outs, vs ≠ [] → (∀ v ∈ vs, ∃ xs, v = .list xs) → ¬ done 0 vs outs) {fuel b : Nat}
    (hne : cs ≠ []) (hg : ∀ c ∈ cs, c.Good) (hb : ∀ c ∈ cs, W (b + 1) (pack c))
    (hbud : fuel ≤ b + 1 ∨ ∃ D, D ≤ b + 1 ∧ ∀ cs, get D cs ≠ ok none) {it : Item}
    (h : (bcastAndApply a get fuel cs >>= onlyOutput) = ok it) :
    ∃ out ys n, it = .array out ∧ out.toList = ok ys ∧ ys.length = n ∧ (∀ c ∈ cs, c.len = n) ∧
      ∀ i, i < n → Applies done go 1 1 (cs.map (fun c => c.valD i)) [ys[i]?.getD .null] := by
  unfold bcastAndApply at h
  simp only [bind_eq_ok] at h
  obtain ⟨items, ⟨outs, h1, h2⟩, h3⟩ := h
  rw [show (fun c : Content => regular {} c c.len 1) = pack from rfl] at h1
  obtain ⟨n0, hbo⟩ := bcastWith_sound hW (by simp [ha]) hget fuel 0 (b + 1)
    (cs.map pack) outs (by simp) (by simpa using hne)
    (by
      intro d hd
      obtain ⟨c, hc, rfl⟩ := List.mem_map.mp hd
      exact ⟨(pack_row (hg c hc)).1, hb c hc⟩)
    (by
      rcases hbud with h | ⟨D, h1, h2⟩
      · exact .inl h
      · exact .inr ⟨ha, D, by omega, by omega, h2⟩) h1
  obtain ⟨c0, hc0⟩ := List.exists_mem_of_ne_nil cs hne
  have hn0 : n0 = 1 := by
    rw [← hbo.len _ (List.mem_map.mpr ⟨c0, hc0, rfl⟩)]; exact pack_len c0
  subst hn0
  obtain ⟨o, rfl⟩ : ∃ o, outs = [o] := by
    match outs, hbo.length with
    | [o], _ => exact ⟨o, rfl⟩
  simp only [mapR, bind_eq_ok, ok.injEq] at h2
  obtain ⟨it', h4, _, rfl, rfl⟩ := h2
  simp only [onlyOutput, ok.injEq] at h3; subst h3
  obtain ⟨hog, hol⟩ := hbo.good o (by simp)
  have hrow := hbo.rows 0 (by omega)
  have hvs : (cs.map pack).map (fun c => c.valD 0)
      = cs.map (fun c => .list ((List.range c.len).map c.valD)) := by
    rw [List.map_map]
    exact List.map_congr_left (fun c hc => (pack_row (hg c hc)).2)
  rw [hvs] at hrow
  simp only [List.map_cons, List.map_nil] at hrow
  generalize hx : cs.map (fun c => Val.list ((List.range c.len).map c.valD)) = vs at hrow
  generalize ho : [o.valD 0] = os at hrow
  have hcol : ∀ c ∈ cs, Val.list ((List.range c.len).map c.valD) ∈ vs := by
    intro c hc; rw [← hx]; exact List.mem_map.mpr ⟨c, hc, rfl⟩
  have hall : ∀ v ∈ vs, ∃ xs, v = .list xs := by
    intro v hv; rw [← hx] at hv
    obtain ⟨c, _, rfl⟩ := List.mem_map.mp hv
    exact ⟨_, rfl⟩
  cases hrow with
  | done hd => exact absurd hd (hnd _ _ (by rw [← hx]; simpa using hne) hall)
  | null _ hn => obtain ⟨_, h⟩ := hall _ hn; cases h
  | record _ _ _ hl => exact absurd (hcol c0 hc0) (hl _)
  | list _ n _ _ hn _ hm hrows =>
    subst ho
    obtain ⟨ys, hy1, hy2⟩ := hm (o.valD 0) (by simp)
    obtain ⟨out, ho1, ho2⟩ := bcastItem_list hog (by omega) hy1 h4
    refine ⟨out, ys, n, ho1, ho2, hy2, ?_, ?_⟩
    · intro c hc
      have := hn _ (hcol c hc)
      simpa using this
    · intro i hi
      have := hrows i hi
      rw [← hx, List.map_map] at this
      have e : cs.map (Val.elem i ∘ fun c => Val.list ((List.range c.len).map c.valD))
          = cs.map (fun c => c.valD i) := by
        refine List.map_congr_left (fun c hc => ?_)
        have hc' := hn _ (hcol c hc)
        simp only [List.length_map, List.length_range] at hc'
        show ((List.range c.len).map c.valD)[i]?.getD .null = c.valD i
        rw [List.getElem?_eq_getElem (by simp; omega)]
        simp
      rw [e] at this
      simpa [hy1, Val.elem] using this

theorem minLength_same {n : Nat} : ∀ {cs : List Content}, cs ≠ [] → (∀ c ∈ cs, c.len = n) →
    minLength cs = n
  | [], h, _ => absurd rfl h
  | [c], _, h => h c (by simp)
  | c :: d :: cs, _, h => by
    simp only [minLength]
    have h1 := minLength_same (cs := d :: cs) (by simp) (fun c hc => h c (by simp [hc]))
    have h2 := h c (by simp)
    have h3 : minLength (d :: cs) = n := h1
    omega

theorem zip_record {p : Params} {keys : Option (List String)} {n : Nat} {cs : List Content}
    (hne : cs ≠ []) (h : ∀ c ∈ cs, c.Good ∧ c.len = n) :
    (record p keys cs (minLength cs)).Good ∧ (record p keys cs (minLength cs)).len = n ∧
      ∀ i, i < n → (record p keys cs (minLength cs)).valD i = mkRecord keys (cs.map (fun c => c.valD i)) := by
  have hm := minLength_same hne (fun c hc => (h c hc).2)
  have hg : (record p keys cs (minLength cs)).Good :=
    good_record.mpr ⟨fun c hc => by rw [hm, (h c hc).2], fun c hc => (h c hc).1⟩
  refine ⟨hg, by simpa [len] using hm, fun i hi => valD_record hg (by omega)⟩

theorem zipGet_ok (W : Nat → Content → Prop) (limit : Nat) (p : Params) (keys : Option (List String)) {w : Nat} (hw : w ≠ 0) :
    GetOk W (zipGet (some (limit : Int)) p keys)
      (fun depth vs outs => depth = limit ∧ outs = [mkRecord keys vs])
      (fun depth _ => depth ≠ limit) true w 1 where
  stop depth b cs outs n hl hg h := by
    unfold zipGet at h
    simp only [decide_eq_true_eq] at h
    split at h
    · rename_i hd
      simp only [ok.injEq, Option.some.injEq] at h; subst h
      have hne : cs ≠ [] := by rintro rfl; simp at hl; omega
      obtain ⟨h1, h2, h3⟩ := zip_record (p := p) (keys := keys) hne (fun c hc => ⟨(hg c hc).1.good, (hg c hc).2⟩)
      exact ⟨rfl, fun c hc => (hg c hc).2, by simpa using ⟨h1, h2⟩, fun i hi => ⟨by omega, by simp [h3 i hi]⟩⟩
    · cases h
  null depth cs vs h _ _ := by
    rintro rfl
    simp [zipGet] at h
  go depth b cs n _ _ h _ _ i _ := by
    rintro rfl
    simp [zipGet] at h

/-- What `zip` with a depth limit returns. -/
theorem zipArrays_sound {fuel limit : Nat} {p : Params} {keys : Option (List String)}
    {cs : List Content} (hne : cs ≠ []) (hg : ∀ c ∈ cs, c.Good ∧ Clear true (limit - 1) c) {it : Item}
    (h : zipArrays fuel (some (limit : Int)) p keys cs = ok it) :
    ∃ out ys n, it = .array out ∧ out.toList = ok ys ∧ ys.length = n ∧ (∀ c ∈ cs, c.len = n) ∧
      ∀ i, i < n → Zipped limit keys (cs.map (fun c => c.valD i)) (ys[i]?.getD .null) := by
  unfold zipArrays at h
  simp only [decide_eq_true_eq] at h
  split at h
  · cases h
  rename_i hl
  have hw : cs.length ≠ 0 := by simpa using hne
  refine bcastAndApply_jagged rfl (Clear.fam true) (zipGet_ok _ limit p keys hw) (fun vs outs _ _ h => by omega)
    (b := limit - 1) hne (fun c hc => (hg c hc).1)
    (fun c hc => .mk ⟨rfl, rfl⟩ (by simpa [pack, children, isListNode] using (hg c hc).2)) (.inr ⟨limit, by omega, fun cs h => ?_⟩) h
  simp [zipGet] at h

/-! ### The default depth limit -/

theorem Unmarked.fam : Fam true (fun _ => AllNodes UnmarkedNode) where
  closed := {
    lazy := fun _ h => .mk ⟨rfl, trivial⟩ (by simpa [children] using h)
    node := by
      intro c' c hc hl hd a h
      refine .mk ⟨by rw [hl.params]; exact h.here.1, ?_⟩ (fun d' hd' => ?_)
      · have h0 := h.here.2
        have hp := hl.params
        cases c' <;> cases c <;> simp [cls] at hc <;> simp only [ClearNode, Content.params] at h0 hp ⊢ <;>
          try (first | (rw [hp]; exact h0) | (rw [hp]; exact h0.2) | exact h0 |
            (obtain ⟨_, _, _, he⟩ := hl.reg _ _ _ _ rfl; cases he))
        case record.record p k cs n p' k' cs' n' =>
          obtain ⟨_, _, _, he⟩ := hl.keys _ _ _ _ rfl
          simp only [Content.record.injEq] at he
          obtain ⟨_, rfl, _, _⟩ := he
          have hw := hl.width
          simp only [children] at hw
          cases k' with
          | some k => trivial
          | none => simp only [] at h0 ⊢; omega
      · obtain ⟨d, h5, h6⟩ := hd d' hd'
        exact h6 a (h.child h5) }
  numpy _ _ _ := .mk ⟨rfl, trivial⟩ (by simp [children])
  wrap _ _ _ h := .mk ⟨rfl, trivial⟩ (by simpa [children] using h)
  option _ c h ho := by
    cases c <;> simp only [isOption, Bool.false_eq_true] at ho <;>
      exact h.child (by simp [children, inner])
  indexed _ _ _ _ h := h.child (by simp [children])
  record _ _ _ _ _ h := ⟨by rintro rfl; exact h.here.2, fun d hd => h.child (by simpa [children] using hd)⟩
  listArray _ _ _ _ _ h := ⟨h.here.1, h.child (by simp [children])⟩
  listOffset _ _ _ _ h := ⟨h.here.1, h.child (by simp [children])⟩
  regular _ _ _ _ _ h := ⟨rfl, h.here.1, h.child (by simp [children])⟩
  union _ _ _ _ _ h := h.here.2
  mkList _ _ _ _ hp h := .mk ⟨hp, hp⟩ (by simpa [children] using h)
  mono _ _ h := h
  toJagged _ _ _ _ _ h _ _ hc := .mk ⟨h.here.1, h.here.1⟩
    (by simpa [children] using hc 0 (h.child (by simp [children])))

theorem unmarked_arr {c : Content} (h : AllNodes UnmarkedNode c) : c.purelistArr = .none := by
  induction c using induct with
  | empty p => exact h.here.1
  | numpy p dt data => exact h.here.1
  | record p keys cs length ih => exact h.here.1
  | union p tags index cs ih => exact absurd h.here.2 (by simp [ClearNode])
  | _ =>
    rename_i ih
    have h1 := h.here.1
    simp only [params] at h1
    simp only [purelistArr, h1, if_true]
    exact ih (h.child (by simp [children]))

theorem unmarked_depth {c : Content} (h : AllNodes UnmarkedNode c) : 1 ≤ c.purelistDepth := by
  induction c using induct with
  | empty p => simp [purelistDepth]
  | numpy p dt data => simp [purelistDepth]
  | record p keys cs length ih => simp [purelistDepth]
  | union p tags index cs ih => exact absurd h.here.2 (by simp [ClearNode])
  | regular p c size zeros ih =>
    have := ih (h.child (by simp [children]))
    simp only [purelistDepth]; split <;> omega
  | listArray p starts stops c ih =>
    have := ih (h.child (by simp [children]))
    simp only [purelistDepth]; split <;> omega
  | listOffset p offsets c ih =>
    have := ih (h.child (by simp [children]))
    simp only [purelistDepth]; split <;> omega
  | _ =>
    rename_i ih
    simpa only [purelistDepth] using ih (h.child (by simp [children]))

theorem flat_of_depth {c : Content} (h : AllNodes UnmarkedNode c) (hg : c.Good)
    (hd : c.purelistDepth = 1) {i : Nat} (hi : i < c.len) : (c.valD i).isList = false := by
  induction c using induct generalizing i with
  | empty p => simp [len] at hi
  | numpy p dt data => rw [valD_numpy (by simpa [len] using hi)]; rfl
  | record p keys cs length ih =>
    rw [valD_record hg (by simpa [len] using hi)]
    cases keys <;> rfl
  | union p tags index cs ih => exact absurd h.here.2 (by simp [ClearNode])
  | regular p c size zeros ih =>
    have h1 := h.here.1
    have h2 := unmarked_depth (h.child (d := c) (by simp [children]))
    simp only [params] at h1
    simp [purelistDepth, h1] at hd; omega
  | listArray p starts stops c ih =>
    have h1 := h.here.1
    have h2 := unmarked_depth (h.child (d := c) (by simp [children]))
    simp only [params] at h1
    simp [purelistDepth, h1] at hd; omega
  | listOffset p offsets c ih =>
    have h1 := h.here.1
    have h2 := unmarked_depth (h.child (d := c) (by simp [children]))
    simp only [params] at h1
    simp [purelistDepth, h1] at hd; omega
  | indexed p index c ih =>
    simp only [len] at hi
    rw [valD_indexed hg hi]
    have := (good_indexed.mp hg).2 i hi
    exact ih (h.child (by simp [children])) (hg.child (by simp [children])) hd (by omega)
  | indexedOption p index c ih =>
    simp only [len] at hi
    rw [valD_indexedOption hg hi]
    have := (good_indexedOption.mp hg).2 i hi
    split
    · rfl
    · exact ih (h.child (by simp [children])) (hg.child (by simp [children])) hd (by omega)
  | byteMasked p mask vw c ih =>
    simp only [len] at hi
    rw [valD_byteMasked hg hi]
    have := (good_byteMasked.mp hg).1
    split
    · exact ih (h.child (by simp [children])) (hg.child (by simp [children])) hd (by omega)
    · rfl
  | bitMasked p mask vw length lsb c ih =>
    simp only [len] at hi
    rw [valD_bitMasked hg hi]
    have := (good_bitMasked.mp hg).2.1
    split
    · exact ih (h.child (by simp [children])) (hg.child (by simp [children])) hd (by omega)
    · rfl
  | unmasked p c ih =>
    exact ih (h.child (by simp [children])) (hg.child (by simp [children])) hd hi

theorem zipLeaf_unmarked {c : Content} (h : AllNodes UnmarkedNode c) :
    zipLeaf c = true ↔ c.purelistDepth = 1 := by
  simp [zipLeaf, unmarked_arr h]

theorem zipGet_default (p : Params) (keys : Option (List String)) {w : Nat} (hw : w ≠ 0) :
    GetOk (fun _ => AllNodes UnmarkedNode) (zipGet none p keys)
      (fun _ vs outs => (∀ v ∈ vs, v.isList = false) ∧ outs = [mkRecord keys vs])
      (fun _ vs => Val.null ∈ vs ∨ ∃ v ∈ vs, v.isList = true) true w 1 where
  stop depth b cs outs n hl hg h := by
    unfold zipGet at h
    simp only at h
    split at h
    · rename_i hd
      simp only [ok.injEq, Option.some.injEq] at h; subst h
      have hne : cs ≠ [] := by rintro rfl; simp at hl; omega
      obtain ⟨h1, h2, h3⟩ := zip_record (p := p) (keys := keys) hne
        (fun c hc => ⟨(hg c hc).1.good, (hg c hc).2⟩)
      refine ⟨rfl, fun c hc => (hg c hc).2, by simpa using ⟨h1, h2⟩, fun i hi => ⟨?_, by simp [h3 i hi]⟩⟩
      intro v hv
      obtain ⟨c, hc, rfl⟩ := List.mem_map.mp hv
      rw [List.all_eq_true] at hd
      exact flat_of_depth (hg c hc).1.nodes (hg c hc).1.good
        ((zipLeaf_unmarked (hg c hc).1.nodes).mp (hd c hc)) (by rw [(hg c hc).2]; exact hi)
    · cases h
  null depth cs vs h _ hn := .inl hn
  go depth b cs n _ hg h hk _ i hi := by
    unfold zipGet at h
    simp only at h
    split at h
    · cases h
    rename_i hd
    simp only [List.all_eq_true, Classical.not_forall] at hd
    obtain ⟨c, hc, hz⟩ := hd
    rcases hk c hc with hj | hf
    · obtain ⟨xs, hx⟩ := jagged_val Unmarked.fam (b := b) (hg c hc).1 hj (by rw [(hg c hc).2]; exact hi)
      exact .inr ⟨_, List.mem_map.mpr ⟨c, hc, rfl⟩, by rw [hx]; rfl⟩
    · exfalso
      apply hz
      rw [zipLeaf_unmarked (hg c hc).1.nodes]
      cases c <;> first | rfl | exact Bool.noConfusion hf

/-- What `zip` without a depth limit returns. -/
theorem zipArrays_default {fuel : Nat} {p : Params} {keys : Option (List String)}
    {cs : List Content} (hne : cs ≠ []) (hg : ∀ c ∈ cs, c.Good ∧ AllNodes UnmarkedNode c) {it : Item}
    (h : zipArrays fuel none p keys cs = ok it) :
    ∃ out ys n, it = .array out ∧ out.toList = ok ys ∧ ys.length = n ∧ (∀ c ∈ cs, c.len = n) ∧
      ∀ i, i < n → ZippedAll keys (cs.map (fun c => c.valD i)) (ys[i]?.getD .null) := by
  unfold zipArrays at h
  simp only [Bool.false_eq_true, if_false] at h
  have hw : cs.length ≠ 0 := by simpa using hne
  refine bcastAndApply_jagged rfl Unmarked.fam (zipGet_default p keys hw) (fun vs outs h1 h2 h3 => ?_)
    (b := fuel) hne (fun c hc => (hg c hc).1)
    (fun c hc => .mk ⟨rfl, rfl, rfl⟩ (by simpa [pack, children] using (hg c hc).2)) (.inl (by omega)) h
  obtain ⟨v, hv⟩ := List.exists_mem_of_ne_nil vs h1
  obtain ⟨xs, rfl⟩ := h2 v hv
  exact Bool.noConfusion (h3.1 _ hv)

/-! ### Zipping arrays without going inside -/

theorem pack_jagged {c : Content} (hg : c.Good) :
    ∃ d, regularToJagged true (pack c) = ok (listOffset {} [0, (c.len : Int)] d) ∧ d.Good ∧
      c.len ≤ d.len ∧ ∀ i, i < c.len → d.valD i = c.valD i := by
  have hp := pack_row hg
  obtain ⟨offs, d, p1, p2, p3⟩ := listParts_ok hp.1 (show (pack c).isListNode = true from rfl)
  have hl : (pack c).lens 0 = c.len := by
    have := p2.vals 0 (by rw [pack_len]; omega)
    rw [hp.2] at this
    simp only [pack, params, wrapList, Val.list.injEq] at this
    have := congrArg List.length this
    simp only [seg, List.length_map, List.length_range] at this
    exact this.symm
  have hb := p2.bound
  have ho := p2.offs_eq
  rw [pack_len] at hb ho
  simp only [sumTo_succ, sumTo_zero, hl] at hb
  refine ⟨d, ?_, p2.good, by omega, fun i hi => ?_⟩
  swap
  · have hv := p2.vals 0 (by rw [pack_len]; omega)
    rw [hp.2, hl] at hv
    simp only [pack, params, wrapList, Val.list.injEq, sumTo_zero, seg, Nat.zero_add] at hv
    have := congrArg (fun l => l[i]?) hv
    simp only [List.getElem?_map, List.getElem?_range hi, Option.map_some, Option.some.injEq] at this
    exact this.symm
  have he : offs = [0, (c.len : Int)] := by
    rw [ho]
    simp [offsTo, List.range_succ, sumTo_succ, hl]
  rw [show regularToJagged true (pack c) = (pack c).toListOffset from rfl]
  unfold toListOffset
  rw [p1, bind_ok, he]
  rfl

theorem regularToJagged_good {c : Content} (hg : c.Good) :
    ∃ d, regularToJagged true c = ok d ∧ d.Good ∧ d.len = c.len ∧
      ∀ i, i < c.len → d.valD i = c.valD i := by
  cases c <;> first | exact ⟨_, rfl, hg, rfl, fun _ _ => rfl⟩ | skip
  exact toListOffset_ok hg rfl

theorem mapR_exists {α β : Type} {f : α → R β} {P : α → β → Prop} : ∀ {cs : List α},
    (∀ c ∈ cs, ∃ d, f c = ok d ∧ P c d) → ∃ ds, mapR f cs = ok ds ∧ List.Forall₂ P cs ds
  | [], _ => ⟨[], rfl, .nil⟩
  | c :: cs, h => by
    obtain ⟨d, h1, h2⟩ := h c (by simp)
    obtain ⟨ds, h3, h4⟩ := mapR_exists (cs := cs) (fun c hc => h c (by simp [hc]))
    exact ⟨d :: ds, by simp [mapR, h1, h3], .cons h2 h4⟩

/-- The same values. -/
def SameVals (n : Nat) (c d : Content) : Prop := d.Good ∧ d.len = n ∧ ∀ i, i < n → d.valD i = c.valD i

theorem getitemRange_exact {c : Content} {n : Nat} (h : n ≤ c.len) (hn : n < 2 ^ 63 - 1) :
    getitemRange c 0 (n : Int) = c.range 0 (n : Int) := by
  unfold getitemRange
  have h0 : ((0 : Int) != kSliceNone) = true := by decide
  have h1 : ((n : Int) != kSliceNone) = true := by
    simp only [bne_iff_ne, kSliceNone]; omega
  rw [h0, h1]
  have : regularize_rangeslice 0 n true true true c.len = (0, (n : Int)) := by
    unfold regularize_rangeslice
    simp only [if_true, Bool.not_true, Bool.false_eq_true, if_false, Int.lt_irrefl]
    rw [if_neg (show ¬ ((0 : Int) > c.len) by omega), if_neg (show ¬ ((n : Int) < 0) by omega),
      if_neg (show ¬ ((n : Int) < 0) by omega), if_neg (show ¬ ((n : Int) > c.len) by omega),
      if_neg (show ¬ ((n : Int) < 0) by omega)]
  rw [this]

/-- `zip` with depth limit 1 accepts all arrays of the same length. -/
theorem zipArrays_one {fuel n : Nat} {p : Params} {keys : Option (List String)}
    {cs : List Content} (hne : cs ≠ []) (hf : 2 ≤ fuel) (hg : ∀ c ∈ cs, c.Good)
    (hl : ∀ c ∈ cs, c.len = n) (hn : n < 2 ^ 63 - 1) :
    ∃ es, zipArrays fuel (some 1) p keys cs = ok (.array (record p keys es n)) ∧
      List.Forall₂ (SameVals n) cs es := by
  obtain ⟨f, rfl⟩ : ∃ f, fuel = f + 2 := ⟨fuel - 2, by omega⟩
  obtain ⟨js, j1, j2⟩ := mapR_exists (f := regularToJagged true) (cs := cs.map pack)
    (P := fun j' j => ∃ c ∈ cs, j' = pack c ∧
      ∃ d, j = listOffset {} [0, (n : Int)] d ∧ d.Good ∧ n ≤ d.len ∧ ∀ i, i < n → d.valD i = c.valD i)
    (fun j hj => by
      obtain ⟨c, hc, rfl⟩ := List.mem_map.mp hj
      obtain ⟨d, h1, h2, h3, h4⟩ := pack_jagged (hg c hc)
      rw [hl c hc] at h1 h3 h4
      exact ⟨_, h1, c, hc, rfl, d, rfl, h2, h3, h4⟩)
  rw [List.forall₂_map_left_iff] at j2
  have j3 : ∀ j ∈ js, ∃ d, j = listOffset {} [0, (n : Int)] d ∧ d.Good ∧ n ≤ d.len := by
    intro j hj
    obtain ⟨_, _, c, _, _, d, h1, h2, h3, _⟩ := forall₂_mem j2 hj
    exact ⟨d, h1, h2, h3⟩
  obtain ⟨ds, d1, d2⟩ := mapR_exists (f := sameNext) (cs := js)
    (P := fun j e => ∃ d, j = listOffset {} [0, (n : Int)] d ∧ SameVals n d e) (fun j hj => by
      obtain ⟨d, rfl, h1, h2⟩ := j3 j hj
      obtain ⟨e, e1, e2, _, e4, _⟩ := range_good h1 (a := 0) (b := n) (by omega) (by omega)
      refine ⟨e, ?_, d, rfl, e2, by simpa using e4.1, fun i hi => ?_⟩
      · show (rd [0, (n : Int)] ((2 - 1 : Nat) : Int) >>= fun l => getitemRange d 0 l) = ok e
        rw [show rd [0, (n : Int)] ((2 - 1 : Nat) : Int) = ok (n : Int) from rfl, bind_ok,
          getitemRange_exact h2 hn]
        exact e1
      · rw [e4.valD (by omega)]; simp)
  have d3 : ∀ d ∈ ds, d.Good ∧ d.len = n := by
    intro d hd
    obtain ⟨_, _, _, _, h1, h2, _⟩ := forall₂_mem d2 hd
    exact ⟨h1, h2⟩
  obtain ⟨es, e1, e2⟩ := mapR_exists (f := regularToJagged true) (cs := ds)
    (P := SameVals n) (fun d hd => by
      obtain ⟨e, h1, h2, h3, h4⟩ := regularToJagged_good (d3 d hd).1
      rw [(d3 d hd).2] at h3 h4
      exact ⟨e, h1, h2, h3, h4⟩)
  have e3 : ∀ d ∈ es, d.Good ∧ d.len = n := by
    intro d hd
    obtain ⟨_, _, h1, h2, _⟩ := forall₂_mem e2 hd
    exact ⟨h1, h2⟩
  have hlen1 := j2.length_eq
  have hlen2 := d2.length_eq
  have hlen3 := e2.length_eq
  have hvals : List.Forall₂ (SameVals n) cs es := by
    refine List.forall₂_iff_get.mpr ⟨by omega, fun i h1 h2 => ?_⟩
    obtain ⟨c, hc, hp, d, hd1, hd2, hd3, hd4⟩ := (List.forall₂_iff_get.mp j2).2 i h1 (by omega)
    obtain ⟨d', hd5, hd6⟩ := (List.forall₂_iff_get.mp d2).2 i (by omega) (by omega)
    have hd7 := (List.forall₂_iff_get.mp e2).2 i (by omega) h2
    rw [hd1] at hd5
    simp only [listOffset.injEq, true_and] at hd5
    subst hd5
    simp only [pack, regular.injEq] at hp
    obtain ⟨_, rfl, _⟩ := hp
    exact ⟨hd7.1, hd7.2.1, fun k hk => by rw [hd7.2.2 k hk, hd6.2.2 k hk, hd4 k hk]⟩
  have hjne : js ≠ [] := by
    rintro rfl
    exact hne (List.length_eq_zero_iff.mp (by simpa using hlen1))
  have hene : es ≠ [] := by
    rintro rfl
    rw [List.length_nil] at hlen3
    exact hjne (List.length_eq_zero_iff.mp (by omega))
  have hhead : ∀ (l : List Content) (m : Nat), (∀ c ∈ l, c.len = m) →
      l.any (fun c => c.len != ((l.map len).headD 0)) = false := by
    intro l m h
    rw [List.any_eq_false]
    intro c hc
    obtain ⟨c0, l', rfl⟩ := List.exists_cons_of_ne_nil (List.ne_nil_of_mem hc)
    simp [h c hc, h c0 (by simp)]
  have hsame : ∀ (l : List Content) (o : Option (List Int)), (∀ c ∈ l, ∃ d, c = listOffset {} [0, (n : Int)] d) →
      (o = none ∨ o = some [0, (n : Int)]) → allSameOffsets o l = true := by
    intro l
    induction l with
    | nil => intro o _ _; rfl
    | cons c l ih =>
      intro o h ho
      obtain ⟨d, rfl⟩ := h c (by simp)
      rcases ho with rfl | rfl
      · exact ih _ (fun c hc => h c (by simp [hc])) (.inr rfl)
      · simp only [allSameOffsets, ne_eq, not_true_eq_false, if_false]
        exact ih _ (fun c hc => h c (by simp [hc])) (.inr rfl)
  have hno : ∀ (P : Content → Bool), (∀ o d, P (listOffset {} o d) = false) → js.any P = false := by
    intro P hP
    rw [List.any_eq_false]
    intro j hj
    obtain ⟨d, rfl, _⟩ := j3 j hj
    rw [hP]; simp
  have hin : bcastWith ⟨false, true, true⟩ (zipGet (some 1) p keys) (f + 1) 1 ds
      = ok [record p keys es (minLength es)] := by
    simp only [bcastWith, e1, bind_ok, Bool.false_eq_true, if_false, hhead es n (fun c hc => (e3 c hc).2)]
    simp [zipGet]
  have hjlen : ∀ j ∈ js, j.len = 1 := by
    intro j hj
    obtain ⟨d, rfl, _⟩ := j3 j hj
    rfl
  have hlast : sameLists js (record p keys es (minLength es))
      = ok (listOffset {} [0, (n : Int)] (record p keys es (minLength es))) := by
    obtain ⟨j, l, hjl⟩ := List.exists_cons_of_ne_nil (show js.reverse ≠ [] by simpa using hjne)
    obtain ⟨d, rfl, _⟩ := j3 j (by rw [← List.mem_reverse, hjl]; simp)
    unfold sameLists
    rw [hjl]
    simp
  have hout : bcastWith ⟨false, true, true⟩ (zipGet (some 1) p keys) (f + 2) 0 (cs.map pack)
      = ok [listOffset {} [0, (n : Int)] (record p keys es (minLength es))] := by
    rw [bcastWith]
    simp only [j1, bind_ok, Bool.false_eq_true, if_false, hhead js 1 hjlen]
    rw [show zipGet (some 1) p keys 0 js = ok none from by simp [zipGet]]
    simp only [bind_ok]
    unfold bcastSwitch
    rw [hno _ (fun _ _ => rfl), hno _ (fun _ _ => rfl), hno _ (fun _ _ => rfl), hno _ (fun _ _ => rfl)]
    simp only [Bool.false_eq_true, if_false]
    rw [if_pos, if_neg, if_neg]
    · unfold sameStep
      rw [d1, bind_ok, show (0 + 1 : Nat) = 1 from rfl, hin, bind_ok]
      simp only [mapR, hlast, bind_ok]
    · rw [hsame js none (fun c hc => (j3 c hc).imp (fun _ h => h.1)) (.inl rfl)]; simp
    · obtain ⟨j, hj⟩ := List.exists_mem_of_ne_nil js hjne
      obtain ⟨d, rfl, _⟩ := j3 j hj
      rw [List.all_eq_true]
      intro h
      exact Bool.noConfusion (h _ hj)
    · obtain ⟨j, hj⟩ := List.exists_mem_of_ne_nil js hjne
      obtain ⟨d, rfl, _⟩ := j3 j hj
      exact List.any_eq_true.mpr ⟨_, hj, rfl⟩
  obtain ⟨r1, r2, r3⟩ := zip_record (p := p) (keys := keys) hene e3
  have hgo : (listOffset {} [0, (n : Int)] (record p keys es (minLength es))).Good := by
    have h : offsTo (fun _ => n) 1 = [0, (n : Int)] := by simp [offsTo, List.range_succ, sumTo_succ]
    rw [← h]
    exact good_offsTo r1 (by rw [r2]; simp [sumTo_succ])
  have hm : minLength es = n := by simpa [len] using r2
  refine ⟨es, ?_, hvals⟩
  unfold zipArrays bcastAndApply
  rw [show (fun c : Content => regular {} c c.len 1) = pack from rfl, hout]
  simp only [bind_ok, mapR]
  have hb : bcastItem (listOffset {} [0, (n : Int)] (record p keys es (minLength es))) = ok (.array (record p keys es n)) := by
    unfold bcastItem
    rw [if_neg (by simp [len])]
    unfold getitemAt
    simp only [Int.lt_irrefl, if_false]
    rw [if_neg (by simp [len]), show (0 : Int).toNat = 0 from rfl, hm]
    simp only [getitemAtNowrap]
    rw [show rd [0, (n : Int)] ((0 : Nat) : Int) = ok 0 from rfl, bind_ok,
      show rd [0, (n : Int)] ((0 + 1 : Nat) : Int) = ok (n : Int) from rfl, bind_ok]
    have hch : checkStartStop 0 (n : Int) (record p keys es n).len = ok (0, (n : Int)) := by
      unfold checkStartStop
      by_cases h0 : (0 : Int) = n
      · simp [← h0]
      · simp only [h0, if_false, Int.lt_irrefl]
        rw [if_neg (by omega), if_neg (by simp [len])]
    rw [hch]
    simp only [bind_ok, range]
    rw [if_neg (by simpa using hene), if_pos (by simp), bind_ok]
  rw [hb]
  rfl

/-- `unzip` returns the fields of the records. -/
theorem unzip_record {p : Params} {keys : Option (List String)} {cs : List Content} {length : Nat}
    (hg : (record p keys cs length).Good) (hne : cs ≠ []) (hn : keys = none → cs.length < 2 ^ 31)
    (hk : ∀ ks, keys = some ks → ks.length = cs.length ∧ ks.Nodup) :
    ∃ ds, unzipRecords (record p keys cs length) = ok ds ∧ List.Forall₂ (SameVals length) cs ds := by
  obtain ⟨hl, hc⟩ := good_record.mp hg
  have hklen : (recordKeys keys cs.length).length = cs.length := by
    cases keys with
    | none => simp [recordKeys]
    | some ks => exact (hk ks rfl).1
  have hname : ∀ i (h : i < (recordKeys keys cs.length).length),
      Named keys cs.length (recordKeys keys cs.length)[i] i := by
    intro i h
    cases keys with
    | none =>
      have := hn rfl
      rw [hklen] at h
      exact ⟨h, by simp [recordKeys], by omega⟩
    | some ks =>
      obtain ⟨hk1, hk2⟩ := hk ks rfl
      simp only [recordKeys] at h ⊢
      refine ⟨by omega, List.getElem?_eq_getElem h, fun j hj he => ?_⟩
      rw [List.getElem?_eq_getElem (show j < ks.length by omega)] at he
      simp only [Option.some.injEq] at he
      have := (List.Nodup.getElem_inj_iff hk2).mp he
      omega
  have hget : ∀ i (h : i < (recordKeys keys cs.length).length),
      fieldNext (recordKeys keys cs.length)[i] (record p keys cs length)
        = (cs[i]'(by omega)).range 0 length := by
    intro i h
    simp only [fieldNext, fieldOfKey]
    rw [fieldIndex_ok (hname i h), bind_ok, rd_nat_ok (by omega), bind_ok]
  obtain ⟨ds, h1, h2⟩ := mapR_exists (f := fun key => fieldNext key (record p keys cs length))
    (cs := recordKeys keys cs.length)
    (P := fun key d => fieldNext key (record p keys cs length) = ok d) (fun key hkey => by
      obtain ⟨i, hi, rfl⟩ := List.getElem_of_mem hkey
      have hm := List.getElem_mem (show i < cs.length by omega)
      obtain ⟨e, e1, _⟩ := range_good (hc _ hm) (a := 0) (b := length) (by omega) (hl _ hm)
      exact ⟨e, by rw [hget i hi]; exact e1, by rw [hget i hi]; exact e1⟩)
  refine ⟨ds, ?_, List.forall₂_iff_get.mpr ⟨by rw [← h2.length_eq, hklen], fun i h3 h4 => ?_⟩⟩
  · simp only [unzipRecords]
    rw [if_neg (by simpa using hne), h1]
  · have h5 := (List.forall₂_iff_get.mp h2).2 i (by omega) h4
    simp only [List.get_eq_getElem] at h5 ⊢
    rw [hget i (by omega)] at h5
    have hm := List.getElem_mem h3
    obtain ⟨e, e1, e2, _, e4, _⟩ := range_good (hc _ hm) (a := 0) (b := length) (by omega) (hl _ hm)
    rw [show cs[i].range 0 length = ok e from e1] at h5
    simp only [ok.injEq] at h5; subst h5
    exact ⟨e2, by simpa using e4.1, fun k hk => by rw [e4.valD (by omega)]; simp⟩

end Content
end Awk
