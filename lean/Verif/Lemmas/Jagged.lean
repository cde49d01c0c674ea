import Verif.Lemmas.JaggedKernels
import Verif.Lemmas.ReduceLocal
/-
`getitem_next_jagged` of each class.
-/

namespace Awk
open R Spec

/-! ### The specification on the values of each node -/

namespace Spec

theorem onListItems_eq (k : List Val → Option Val) (vs : List Val) :
    onListItems k vs = vs.mapM (onList k) := by
  induction vs with
  | nil => simp [onListItems]
  | cons v vs ih =>
    simp only [onListItems, ih, List.mapM_cons]
    cases onList k v <;> simp
    cases List.mapM (onList k) vs <;> rfl

theorem onListFields_zip (k : List Val → Option Val) (ks : List String) (vs ws : List Val)
    (h : vs.mapM (onList k) = some ws) :
    onListFields k (ks.zip vs) = some (ks.zip ws) := by
  induction ks generalizing vs ws with
  | nil => simp [onListFields]
  | cons key ks ih =>
    cases vs with
    | nil => simp only [List.mapM_nil] at h; cases h; simp [onListFields]
    | cons v vs =>
      simp only [List.mapM_cons] at h
      cases h1 : onList k v with
      | none => rw [h1] at h; simp at h
      | some w =>
        rw [h1] at h
        cases h2 : List.mapM (onList k) vs with
        | none => rw [h2] at h; simp at h
        | some us =>
          rw [h2] at h
          simp only [Option.bind_eq_bind, Option.bind_some, Option.pure_def] at h
          cases h
          simp only [List.zip_cons_cons, onListFields, h1, Option.bind_some, ih vs us h2,
            Option.map_some]

theorem onListFields_isSome {k : List Val → Option Val} {ks : List String} {vs : List Val}
    (hl : vs.length ≤ ks.length) (h : (onListFields k (ks.zip vs)).isSome) :
    ∀ v ∈ vs, (onList k v).isSome := by
  induction ks generalizing vs with
  | nil =>
    have : vs = [] := List.length_eq_zero_iff.mp (by simpa using hl)
    subst this; simp
  | cons key ks ih =>
    cases vs with
    | nil => simp
    | cons v vs =>
      simp only [List.zip_cons_cons, onListFields] at h
      cases h1 : onList k v with
      | none => rw [h1] at h; simp at h
      | some w =>
        rw [h1] at h
        simp only [Option.bind_some, Option.isSome_map] at h
        intro y hy
        cases hy with
        | head => simp [h1]
        | tail _ hy => exact ih (by simpa using hl) h y hy

theorem onList_mkRecord {k : List Val → Option Val} {keys : Option (List String)}
    {vs ws : List Val} (h : vs.mapM (onList k) = some ws) :
    onList k (mkRecord keys vs) = some (mkRecord keys ws) := by
  cases keys with
  | none => simp [mkRecord, onList, onListItems_eq, h]
  | some ks => simp [mkRecord, onList, onListFields_zip k ks vs ws h]

theorem onList_mkRecord_isSome {k : List Val → Option Val} {keys : Option (List String)}
    {vs : List Val} (hk : ∀ ks, keys = some ks → ks.length = vs.length)
    (h : (onList k (mkRecord keys vs)).isSome) : ∀ v ∈ vs, (onList k v).isSome := by
  cases keys with
  | none =>
    simp only [mkRecord, onList, Option.isSome_map, onListItems_eq] at h
    exact mapM_isSome h
  | some ks =>
    simp only [mkRecord, onList, Option.isSome_map] at h
    exact onListFields_isSome (by rw [hk ks rfl]) h

/-! ### Which arrays fit -/

section
variable {b : Bool} {n : Nat}

theorem Ragged.closed (b : Bool) : Content.ClosedG False (Ragged b) where
  lazy := by
    intro n idx c _ h
    exact .index rfl (by simpa [Content.children] using h)
  node := by
    intro c' c hcls hloc hd n h
    have hd' : ∀ n, (∀ d ∈ c.children, Ragged b n d) → ∀ d ∈ c'.children, Ragged b n d := by
      intro n hx d hdm
      obtain ⟨d0, h0, h1⟩ := hd d hdm
      exact h1 n (hx d0 h0)
    have hlist : c.isListNode = true → c'.isListNode = true := by
      intro h1
      cases c <;> simp only [Content.isListNode, Bool.false_eq_true] at h1 <;>
        cases c' <;> simp only [Content.cls] at hcls <;> first | rfl | omega
    cases h with
    | last h1 h2 => exact .last (hlist h1) (by rw [hloc.params]; exact h2)
    | list h1 h2 h3 => exact .list (hlist h1) (by rw [hloc.params]; exact h2) (hd' _ h3)
    | index h1 h2 =>
      refine .index ?_ (hd' _ h2)
      cases c <;> simp only [isIndex, Bool.false_eq_true] at h1 <;>
        cases c' <;> simp only [Content.cls] at hcls <;> first | rfl | omega
    | option h0 h1 h2 =>
      refine .option h0 ?_ (hd' _ h2)
      cases c <;> simp only [canMiss, Bool.false_eq_true] at h1 <;>
        cases c' <;> simp only [Content.cls] at hcls <;> first | rfl | omega
    | @record _ p keys cs length h1 h2 h3 =>
      cases c' with
      | record p' keys' cs' length' =>
        have hw := hloc.width
        simp only [Content.children] at hw
        refine .record ?_ ?_ (hd' _ h3)
        · intro he
          rw [he, List.length_nil] at hw
          exact h1 (List.length_eq_zero_iff.mp hw.symm)
        · intro ks hks
          obtain ⟨_, _, _, he⟩ := hloc.keys _ _ _ _ rfl
          simp only [Content.record.injEq] at he
          rw [h2 ks (by rw [he.2.1, hks]), hw]
      | _ => simp only [Content.cls] at hcls; omega

theorem Ragged.inv_list {c : Content} (h : Ragged b n c) (hl : c.isListNode = true) :
    PlainList c.params ∧ ∀ m, n = m + 1 → ∀ d ∈ c.children, Ragged b m d := by
  cases h with
  | last h1 h2 => exact ⟨h2, fun m hm => by omega⟩
  | list h1 h2 h3 => exact ⟨h2, fun m hm => by obtain rfl : _ = m := Nat.succ.inj hm; exact h3⟩
  | index h2 => cases c <;> simp [isIndex] at h2 <;> simp [Content.isListNode] at hl
  | option _ h2 => cases c <;> simp [canMiss] at h2 <;> simp [Content.isListNode] at hl
  | record => simp [Content.isListNode] at hl

theorem Ragged.inv_index {c : Content} (h : Ragged b n c) (hl : isIndex c = true) :
    ∀ d ∈ c.children, Ragged b n d := by
  cases h with
  | last h1 => cases c <;> simp [isIndex] at hl <;> simp [Content.isListNode] at h1
  | list h1 => cases c <;> simp [isIndex] at hl <;> simp [Content.isListNode] at h1
  | index h1 h2 => exact h2
  | option _ h2 => cases c <;> simp [canMiss] at h2 <;> simp [isIndex] at hl
  | record => simp [isIndex] at hl

theorem Ragged.inv_option {c : Content} (h : Ragged b n c) (hl : canMiss c = true) :
    n = 0 ∧ b = false ∧ ∀ d ∈ c.children, Ragged b 0 d := by
  cases h with
  | last h1 => cases c <;> simp [canMiss] at hl <;> simp [Content.isListNode] at h1
  | list h1 => cases c <;> simp [canMiss] at hl <;> simp [Content.isListNode] at h1
  | option h1 h2 h3 => exact ⟨rfl, h1, h3⟩
  | index h2 => cases c <;> simp [canMiss] at hl <;> simp [isIndex] at h2
  | record => simp [canMiss] at hl

theorem Ragged.inv_record {p : Params} {keys : Option (List String)} {cs : List Content}
    {length : Nat} (h : Ragged b n (.record p keys cs length)) :
    cs ≠ [] ∧ (∀ ks, keys = some ks → ks.length = cs.length) ∧ ∀ d ∈ cs, Ragged b n d := by
  cases h with
  | last h1 => simp [Content.isListNode] at h1
  | list h1 => simp [Content.isListNode] at h1
  | option h1 h2 => simp [canMiss] at h2
  | index h2 => simp [isIndex] at h2
  | record h1 h2 h3 => exact ⟨h1, h2, h3⟩

theorem Ragged.inv_leaf {c : Content} (h : Ragged b n c) (hl : c.isListNode = false)
    (hi : isIndex c = false) (ho : canMiss c = false) (hc : ∀ p k cs n, c ≠ .record p k cs n) :
    False := by
  cases h with
  | last h1 => rw [hl] at h1; exact Bool.noConfusion h1
  | list h1 => rw [hl] at h1; exact Bool.noConfusion h1
  | option h1 h2 => rw [ho] at h2; exact Bool.noConfusion h2
  | index h2 => rw [hi] at h2; exact Bool.noConfusion h2
  | record => exact hc _ _ _ _ rfl

/-- What is below the lists. -/
def RaggedItems (b : Bool) : Nat → Content → Prop
  | 0, _ => True
  | n + 1, c => Ragged b n c

end
end Spec

/-! ### The slice -/

/-- The part of the slice for list `i`, where the items of its content show `ws`. -/
def ixAt (ws : List Val) (starts stops : List Int) (i : Nat) : List Val :=
  (ws.drop (startAt starts i).toNat).take (pairLen starts stops i)

/-- The bounds of the lists of the slice. Above the last level, and for missing positions, they are
those of all its lists. -/
structure SliceAt (b : Bool) (n : Nat) (ws : List Val) (starts stops : List Int) : Prop where
  len : starts.length = stops.length
  pairs : Pairs starts stops ws.length
  all : n ≠ 0 ∨ b = true → ∃ f N, starts = Content.makeStarts (offsTo f N) ∧
    stops = Content.makeStops (offsTo f N) ∧ sumTo f N = ws.length

namespace Content

/-- What `getitem_next_jagged` must do to lists. -/
def LhOk (b : Bool) (n : Nat) (ws : List Val)
    (lh : List Int → List Int → List Int → List Int → Content → R Content) : Prop :=
  ∀ (starts stops lstarts lstops : List Int) (c : Content), SliceAt b n ws starts stops → c.Good →
    RaggedItems b n c → Pairs lstarts lstops c.len →
    (lh starts stops lstarts lstops c).Tot
      (starts.length = lstarts.length ∧ ∀ i, i < lstarts.length →
        (Spec.jagged n (ixAt ws starts stops i)
          (c.seg (startAt lstarts i).toNat (pairLen lstarts lstops i))).isSome)
      (fun out => starts.length = lstarts.length ∧ Sel lstarts.length out (fun i =>
        Spec.jagged n (ixAt ws starts stops i)
          (c.seg (startAt lstarts i).toNat (pairLen lstarts lstops i))))

/-- What `getitem_next_jagged` must do to an array. -/
def JagOk (b : Bool) (n : Nat) (ws : List Val)
    (jag : List Int → List Int → Content → R Content) (starts stops : List Int) (c : Content) :
    Prop :=
  (jag starts stops c).Tot
    (starts.length = c.len ∧ ∀ i, i < c.len →
      (onList (Spec.jagged n (ixAt ws starts stops i)) (c.valD i)).isSome)
    (fun out => starts.length = c.len ∧ Sel c.len out
      (fun i => onList (Spec.jagged n (ixAt ws starts stops i)) (c.valD i)))

section
variable {b : Bool} {n : Nat} {ws : List Val}
  {lh : List Int → List Int → List Int → List Int → Content → R Content}

/-- A list node. -/
theorem jag_list {f : Nat} (hlh : LhOk b n ws lh) {starts stops lstarts lstops : List Int}
    {me c : Content} {p : Params} (hs : SliceAt b n ws starts stops) (hc : c.Good)
    (hr : RaggedItems b n c) (hp : PlainList p) (hl : Pairs lstarts lstops c.len)
    (hlen : me.len = lstarts.length)
    (hv : ∀ i, i < me.len → me.valD i
      = wrapList p (c.seg (startAt lstarts i).toNat (pairLen lstarts lstops i)))
    (hj : jaggedF lh (f + 1) starts stops me = lh starts stops lstarts lstops c) :
    JagOk b n ws (jaggedF lh (f + 1)) starts stops me := by
  unfold JagOk
  rw [hj]
  have key : ∀ i, i < me.len → onList (Spec.jagged n (ixAt ws starts stops i)) (me.valD i)
      = Spec.jagged n (ixAt ws starts stops i)
          (c.seg (startAt lstarts i).toNat (pairLen lstarts lstops i)) := by
    intro i hi
    rw [hv i hi, wrapList_plain hp]; simp [onList]
  refine (hlh starts stops lstarts lstops c hs hc hr hl).mono ?_ ?_
  · rintro ⟨h1, h2⟩
    refine ⟨by omega, fun i hi => ?_⟩
    rw [← key i (by omega)]
    exact h2 i (by omega)
  · rintro out ⟨h1, h2⟩
    refine ⟨by omega, ?_⟩
    rw [hlen]
    exact h2.congr (fun i hi => key i (by omega))

theorem outIndex_selAt {p : Params} {c next out : Content} {S S' : Nat → Option Val} (h : c.Good)
    (ho : c.isOptionOrIndexed = true) (hp : Picks next c.inner c.shown)
    (hm : Sel next.len out S)
    (hS : ∀ i, i < c.len → S' i = if (c.pickI i).isSome then S (cnt c.pickI i) else some .null) :
    ∃ c', indexedSimplify true p (outIndex c.pickI c.len) out = ok c' ∧ Sel c.len c' S' := by
  have hlen : next.len = cnt c.pickI c.len := by rw [hp.1]; rfl
  have hb : ∀ i, i < c.len → (c.pickI i).isSome → cnt c.pickI i < cnt c.pickI c.len := by
    intro i hi hs
    have h1 := cnt_mono (q := c.pickI) (show i + 1 ≤ c.len by omega)
    rw [cnt_succ, if_pos hs] at h1; omega
  obtain ⟨c', h1, h2, h3, h4⟩ := indexedSimplify_good (p := p) (index := outIndex c.pickI c.len)
    hm.good (by
      intro i hi
      rw [outIndex_getElem]
      have hle := hm.len_le
      split
      · rename_i hs
        have := hb i (by simpa using hi) hs; omega
      · omega)
  rw [outIndex_length] at h3
  refine ⟨c', h1, ⟨h2, by omega, ?_⟩⟩
  intro i hi
  rw [h4 i (by simpa using hi), outIndex_getElem, hS i hi]
  by_cases hs : (c.pickI i).isSome
  · have hlt := hb i hi hs
    simp only [hs, if_true]
    rw [if_neg (by omega), show ((cnt c.pickI i : Nat) : Int).toNat = cnt c.pickI i by omega,
      hm.val _ (by omega)]
  · simp only [hs, Bool.false_eq_true, if_false]
    rfl

/-- The element that a shown position shows. -/
theorem shown_valD {c next : Content} (h : c.Good) (ho : c.isOptionOrIndexed = true)
    (hp : Picks next c.inner c.shown) {i : Nat} (hi : i < c.len) (hs : (c.pickI i).isSome) :
    next.valD (cnt c.pickI i) = c.valD i := by
  obtain ⟨g1, g2⟩ := val_inner_pick h ho hi
  rw [g1]
  cases hpk : c.pick i with
  | none => simp [pickI, hpk] at hs
  | some k =>
    have hget : c.shown[cnt c.pickI i]? = some (k : Int) := by
      rw [shown_eq]; exact filterMap_range_get' hi (by simp [pickI, hpk])
    obtain ⟨hb', he⟩ := List.getElem?_eq_some_iff.mp hget
    rw [hp.valD hb', he]; rfl

theorem hidden_valD {c : Content} (h : c.Good) (ho : c.isOptionOrIndexed = true) {i : Nat}
    (hi : i < c.len) (hs : ¬ (c.pickI i).isSome) : c.valD i = .null := by
  obtain ⟨g1, g2⟩ := val_inner_pick h ho hi
  rw [g1]
  cases hpk : c.pick i with
  | none => rfl
  | some k => simp [pickI, hpk] at hs

theorem jag_option {f : Nat} {starts stops : List Int} {c : Content} {p : Params}
    (ih : ∀ (starts stops : List Int) (c : Content), c.Good → c.rank + c.hgt ≤ f → Ragged b n c →
      SliceAt b n ws starts stops → JagOk b n ws (jaggedF lh f) starts stops c)
    (hs : SliceAt b n ws starts stops) (hg : c.Good)
    (hk : (∃ p index d, c = indexedOption p index d) ∨ (∃ p mask vw d, c = byteMasked p mask vw d))
    (hj : jaggedF lh (f + 1) starts stops c =
      (if starts.length ≠ c.len then err "cannot fit jagged slice" else
      c.nextcarryOutindex >>= fun nco =>
      MaskedArray_getitem_next_jagged_project nco.2.2 starts stops (alloc (c.len - nco.1))
        (alloc (c.len - nco.1)) c.len >>= fun rs =>
      c.inner.carry true nco.2.1 >>= fun next => jaggedF lh f rs.1 rs.2 next >>= fun out =>
      indexedSimplify true p nco.2.2 out))
    (hfuel : c.rank + c.hgt ≤ f + 1) (hr : Ragged b n c) :
    JagOk b n ws (jaggedF lh (f + 1)) starts stops c := by
  have ho : c.isOption = true := by
    rcases hk with ⟨p, index, d, rfl⟩ | ⟨p, mask, vw, d, rfl⟩ <;> rfl
  have hmiss : canMiss c = true := by
    rcases hk with ⟨p, index, d, rfl⟩ | ⟨p, mask, vw, d, rfl⟩ <;> rfl
  have hch : c.children = [c.inner] := by
    rcases hk with ⟨p, index, d, rfl⟩ | ⟨p, mask, vw, d, rfl⟩ <;> rfl
  have hhgt : c.hgt = c.inner.hgt + 1 := by
    rcases hk with ⟨p, index, d, rfl⟩ | ⟨p, mask, vw, d, rfl⟩ <;> rfl
  obtain ⟨rfl, rfl, hrc⟩ := hr.inv_option hmiss
  unfold JagOk
  rw [hj]
  by_cases hlen : starts.length = c.len
  swap
  · rw [if_pos hlen]
    exact .err (fun h => hlen h.1)
  rw [if_neg (by simpa using hlen)]
  obtain ⟨numnull, h1, hnum⟩ := nextcarryOutindex_ok hg hk
  have hcnt : cnt c.pickI c.len = c.shown.length := rfl
  obtain ⟨nc, h2, h3, h4, h5⟩ := carry_good (inner_good hg) true (shown_good hg ho)
  have h6 : Ragged false 0 nc := carry_closed (Ragged.closed false) (inner_good hg)
    (shown_good hg ho) h2 0 (hrc _ (by simp [hch]))
  have h7 := carry_hgt (inner_good hg) (shown_good hg ho) h2
  have hrank := inner_rank (isOption_imp ho)
  rw [h1, bind_ok]
  simp only
  have hsl := hs.len
  have halloc : (alloc ((c.len : Int) - (numnull : Int))).length = cnt c.pickI c.len := by
    rw [show (c.len : Int) - (numnull : Int) = ((cnt c.pickI c.len : Nat) : Int) by omega,
      alloc_length]
  obtain ⟨rs, r1, r2, r3, r4⟩ 
    := jagged_project_ok (q := c.pickI) (starts := starts) (stops := stops)
    (s0 := alloc (c.len - numnull)) (t0 := alloc (c.len - numnull)) (n := c.len) (by omega) (by omega)
    halloc halloc
  rw [r1, bind_ok, h2, bind_ok]
  simp only [Bool.toNat_true] at h4
  have hnl : nc.len = cnt c.pickI c.len := by rw [h5.1]; rfl
  -- the bounds kept
  have hget : ∀ i, i < c.len → (c.pickI i).isSome →
      startAt rs.1 (cnt c.pickI i) = startAt starts i ∧
      pairLen rs.1 rs.2 (cnt c.pickI i) = pairLen starts stops i := by
    intro i hi hsm
    obtain ⟨a1, a2⟩ := r4 i hi hsm
    simp only [startAt, pairLen, a1, a2, and_self]
  have hs' : SliceAt false 0 ws rs.1 rs.2 := by
    refine ⟨by omega, ⟨by omega, ?_⟩, fun h => by simp at h⟩
    intro t ht ht'
    obtain ⟨i, i1, i2, i3⟩ := cnt_inv (q := c.pickI) (n := c.len) (t := t) (by omega)
    obtain ⟨a1, a2⟩ := r4 i i1 i2
    rw [i3] at a1 a2
    rw [List.getElem?_eq_getElem ht, List.getElem?_eq_getElem (by omega)] at a1
    rw [List.getElem?_eq_getElem ht', List.getElem?_eq_getElem (by omega)] at a2
    injection a1 with a1
    injection a2 with a2
    rw [a1, a2]
    exact hs.pairs.2 i (by omega) (by omega)
  refine ((ih rs.1 rs.2 nc h3 (by omega) h6 hs').mono ?_ (fun _ h => h)).bind ?_
  · rintro ⟨g1, g2⟩
    refine ⟨by omega, ?_⟩
    intro t ht
    obtain ⟨i, i1, i2, i3⟩ := cnt_inv (q := c.pickI) (n := c.len) (t := t) (by omega)
    obtain ⟨e1, e2⟩ := hget i i1 i2
    subst i3
    rw [shown_valD hg (isOption_imp ho) h5 i1 i2]
    have := g2 i i1
    simpa only [ixAt, e1, e2] using this
  · rintro out ⟨_, hm⟩
    obtain ⟨c', e1, e2⟩ := outIndex_selAt (p := p)
      (S' := fun i => onList (Spec.jagged 0 (ixAt ws starts stops i)) (c.valD i)) hg
      (isOption_imp ho) h5 hm (by
        intro i hi
        split
        · rename_i hsm
          obtain ⟨e1, e2⟩ := hget i hi hsm
          rw [shown_valD hg (isOption_imp ho) h5 hi hsm]
          simp only [ixAt, e1, e2]
        · rename_i hsm
          rw [hidden_valD hg (isOption_imp ho) hi hsm]; simp [onList])
    rw [e1]
    exact .ok ⟨hlen, e2⟩

theorem jag_record {f : Nat} {starts stops : List Int} {p : Params}
    {keys : Option (List String)} {cs : List Content} {length : Nat}
    (ih : ∀ (starts stops : List Int) (c : Content), c.Good → c.rank + c.hgt ≤ f → Ragged b n c →
      SliceAt b n ws starts stops → JagOk b n ws (jaggedF lh f) starts stops c)
    (hs : SliceAt b n ws starts stops) (hg : (record p keys cs length).Good)
    (hfuel : (record p keys cs length).rank + (record p keys cs length).hgt ≤ f + 1)
    (hr : Ragged b n (record p keys cs length)) :
    JagOk b n ws (jaggedF lh (f + 1)) starts stops (record p keys cs length) := by
  obtain ⟨hne, hkeys, hrc⟩ := hr.inv_record
  obtain ⟨hlen, hcs⟩ := good_record.mp hg
  have hval : ∀ i, i < length → ∀ k, onList k ((record p keys cs length).valD i)
      = onList k (mkRecord keys (cs.map (fun c => c.valD i))) := by
    intro i hi k
    rw [valD_record hg hi]
  unfold JagOk
  simp only [jaggedF, if_neg hne, len]
  set F : Nat → List Val → Option Val := fun i => Spec.jagged n (ixAt ws starts stops i) with hF
  have hfields : ∀ d ∈ cs, (d.range 0 length >>= fun trimmed =>
      jaggedF lh f starts stops trimmed).Tot
      (starts.length = length ∧ ∀ i, i < length →
        (onList (F i) ((record p keys cs length).valD i)).isSome)
      (fun d' => starts.length = length ∧ Sel length d' (fun i => onList (F i) (d.valD i))) := by
    intro d hd
    obtain ⟨d', e1, e2, e3, e4, e5⟩ := range_good (hcs d hd) (a := 0) (b := length) (by omega)
      (hlen d hd)
    have e6 : Ragged b n d' := range_closedG (Ragged.closed b) (hcs d hd) (a := 0) (b := length)
      (fun h => h.elim) (by omega) (hlen d hd) e1 n (hrc d hd)
    have e7 : d'.hgt ≤ d.hgt := range_closedG hgt_closed (hcs d hd) (a := 0) (b := length)
      (fun _ => rfl) (by omega) (hlen d hd) e1 _ (Nat.le_refl _)
    have hrank := child_rank (c := record p keys cs length) (d := d) (by simpa [children] using hd)
    have hh : d.hgt ≤ hgtAll cs := hgtAll_le.mp (Nat.le_refl _) d hd
    have el : d'.len = length := by rw [e4.1]; omega
    have ev : ∀ i, i < length → d'.valD i = d.valD i := by
      intro i hi
      rw [e4.valD (by omega)]; simp
    rw [show ((0 : Nat) : Int) = 0 from rfl] at e1
    rw [e1, bind_ok]
    refine (ih starts stops d' e2 (by simp only [hgt] at hfuel; omega) e6 hs).mono ?_ ?_
    · rintro ⟨g1, g2⟩
      refine ⟨by omega, fun i hi => ?_⟩
      have := g2 i (by omega)
      rw [hval i (by omega)] at this
      rw [ev i (by omega)]
      refine onList_mkRecord_isSome ?_ this _ (List.mem_map.mpr ⟨d, hd, rfl⟩)
      intro ks hks
      rw [List.length_map]; exact hkeys ks hks
    · rintro out ⟨g1, g2⟩
      rw [el] at g2
      exact ⟨by omega, g2.congr (fun i hi => by rw [ev i hi])⟩
  refine (mapR_tot hfields).bind (fun cs' hcs' => .ok ?_)
  have hcl : cs'.length = cs.length := hcs'.length_eq.symm
  have hne' : cs' ≠ [] := by
    intro he; rw [he] at hcl; exact hne (List.length_eq_zero_iff.mp hcl.symm)
  obtain ⟨L, e1, e2, e3⟩ := recordOfContents_eq (p := p) (keys := keys) (z := 0) hne'
  rw [e1]
  have hmem : ∀ d' ∈ cs', ∃ d ∈ cs, starts.length = length ∧
      Sel length d' (fun i => onList (F i) (d.valD i)) := fun d' hd' => forall₂_mem hcs' hd'
  have hLen : length ≤ L := e3 length (fun d' hd' => by
    obtain ⟨d, hd, _, hs⟩ := hmem d' hd'
    exact hs.len_le)
  have hgood : (record p keys cs' L).Good :=
    good_record.mpr ⟨e2, fun d' hd' => by obtain ⟨d, hd, _, hs⟩ := hmem d' hd'; exact hs.good⟩
  obtain ⟨d0, hd0⟩ := List.exists_mem_of_ne_nil _ hne'
  obtain ⟨_, _, hsl, _⟩ := hmem d0 hd0
  refine ⟨hsl, hgood, hLen, ?_⟩
  intro i hi
  rw [hval i hi, valD_record hgood (by omega)]
  refine onList_mkRecord (mapM_of_get (by simp [hcl]) ?_)
  intro j hj
  rw [List.length_map] at hj
  rw [List.getElem_map, List.getElem_map]
  have hs := (hcs'.get hj (by omega)).2
  have := hs.val i hi
  simpa only [List.get_eq_getElem] using this

theorem pairs_make {offsets : List Int} {l : Nat}
    (hp : ∀ i (h : i + 1 < offsets.length), GoodPair offsets[i] offsets[i + 1] l) :
    Pairs (makeStarts offsets) (makeStops offsets) l ∧
      (makeStarts offsets).length = offsets.length - 1 ∧
      ∀ i (h : i + 1 < offsets.length), startAt (makeStarts offsets) i = offsets[i] ∧
        pairLen (makeStarts offsets) (makeStops offsets) i = (offsets[i + 1] - offsets[i]).toNat := by
  obtain ⟨h1, h2, h3⟩ := make_pairs hp
  refine ⟨⟨by omega, h3⟩, h1, ?_⟩
  intro i hi
  refine ⟨?_, ?_⟩
  · unfold startAt
    rw [makeStarts_getElem? hi]; simp [show i < offsets.length by omega]
  · rw [pairLen_make hi]
    simp only [pairLen, List.getElem?_drop]
    rw [List.getElem?_eq_getElem (show 1 + i < offsets.length by omega),
      List.getElem?_eq_getElem (show i < offsets.length by omega)]
    simp only [Option.getD_some, Nat.add_comm 1 i]

theorem jaggedF_ok (hlh : LhOk b n ws lh) (f : Nat) :
    ∀ (starts stops : List Int) (c : Content), c.Good → c.rank + c.hgt ≤ f → Ragged b n c →
      SliceAt b n ws starts stops → JagOk b n ws (jaggedF lh f) starts stops c := by
  induction f with
  | zero =>
    intro starts stops c hg hfuel
    have : 0 < c.rank := by cases c <;> simp [rank]
    omega
  | succ f ih =>
    intro starts stops c hg hfuel hr hs
    have hitems : ∀ d, c.isListNode = true → c.children = [d] → RaggedItems b n d := by
      intro d h1 h2
      cases n with
      | zero => trivial
      | succ m => exact (hr.inv_list h1).2 m rfl d (by simp [h2])
    cases c with
    | empty p => exact (hr.inv_leaf rfl rfl rfl (by simp)).elim
    | numpy p dt data => exact (hr.inv_leaf rfl rfl rfl (by simp)).elim
    | union p tags index cs => exact (hr.inv_leaf rfl rfl rfl (by simp)).elim
    | regular p d size zeros =>
      obtain ⟨offs, c', h1, h2, h3⟩ := listParts_ok hg rfl
      rw [h2.offs_eq] at h1
      have hb : ∀ i (h : i + 1 < (offsTo (regular p d size zeros).lens
          (regular p d size zeros).len).length),
          GoodPair (offsTo (regular p d size zeros).lens (regular p d size zeros).len)[i]
          (offsTo (regular p d size zeros).lens (regular p d size zeros).len)[i + 1] c'.len := by
        intro i hi
        rw [offsTo_getElem, offsTo_getElem]
        rw [offsTo_length] at hi
        have e1 := sumTo_mono (f := (regular p d size zeros).lens) (show i ≤ i + 1 by omega)
        have e2 := sumTo_mono (f := (regular p d size zeros).lens)
          (show i + 1 ≤ (regular p d size zeros).len by omega)
        have := h2.bound
        right; omega
      obtain ⟨q1, q2, q3⟩ := pairs_make hb
      have hit : RaggedItems b n c' := by
        obtain ⟨d', hd', hg'⟩ := h2.src
        simp only [children, List.mem_singleton] at hd'
        subst hd'
        have := hitems d' rfl rfl
        cases n with
        | zero => trivial
        | succ m => exact Gathered.closed (Ragged.closed b) (good_regular.mp hg) hg' m this
      refine jag_list (p := p) hlh hs h2.good hit (hr.inv_list rfl).1 q1
        (by rw [q2, offsTo_length]; rfl) ?_ (by simp only [jaggedF]; rw [h1, bind_ok])
      intro i hi
      rw [h2.vals i hi, (q3 i (by rw [offsTo_length]; omega)).1,
        (q3 i (by rw [offsTo_length]; omega)).2, offsTo_getElem, offsTo_getElem, sumTo_diff]
      rfl
    | listArray p lstarts lstops d =>
      obtain ⟨hl, hc, hp⟩ := good_listArray.mp hg
      refine jag_list (p := p) hlh hs hc (hitems d rfl rfl) (hr.inv_list rfl).1
        ⟨hl, fun i h _ => hp i h⟩ rfl ?_ rfl
      intro i hi
      rw [valD_listArray hg hi (by simp only [len] at hi; omega)]
      simp only [len] at hi
      simp [startAt, pairLen, hi, show i < lstops.length by omega]
    | listOffset p offsets d =>
      obtain ⟨hl, hc, hp⟩ := good_listOffset.mp hg
      obtain ⟨q1, q2, q3⟩ := pairs_make hp
      refine jag_list (p := p) hlh hs hc (hitems d rfl rfl) (hr.inv_list rfl).1 q1
        (by simp only [len]; omega) ?_ rfl
      intro i hi
      simp only [len] at hi
      rw [valD_listOffset hg (by omega), (q3 i (by omega)).1, (q3 i (by omega)).2]
    | indexed p index d =>
      obtain ⟨hd, _⟩ := good_indexed.mp hg
      obtain ⟨c', h1, h2, h3, h4, h5, h6⟩ := project_indexed hg
      have hrd := hr.inv_index rfl d (by simp [children])
      have h7 : c'.hgt ≤ d.hgt := Gathered.closed hgt_closed hd h6 _ (Nat.le_refl _)
      unfold JagOk
      simp only [jaggedF]
      by_cases hlen : starts.length = (indexed p index d).len
      swap
      · rw [if_pos hlen]
        exact .err (fun h => hlen h.1)
      rw [if_neg (by simpa using hlen), h1, bind_ok]
      simp only [rank, hgt] at hfuel
      refine (ih starts stops c' h2 (by omega)
        (Gathered.closed (Ragged.closed b) hd h6 n hrd) hs).mono ?_ ?_
      · rintro ⟨g1, g2⟩
        rw [h4]
        exact ⟨g1, fun i hi => by rw [h5 i hi]; exact g2 i hi⟩
      · rintro out ⟨g1, g2⟩
        rw [h4] at g1 g2
        exact ⟨g1, g2.congr (fun i hi => by simp only [h5 i hi])⟩
    | indexedOption p index d =>
      exact jag_option (p := p) ih hs hg (.inl ⟨_, _, _, rfl⟩) (by simp only [jaggedF]; rfl) hfuel hr
    | byteMasked p mask vw d =>
      exact jag_option (p := p) ih hs hg (.inr ⟨_, _, _, _, rfl⟩) (by simp only [jaggedF]; rfl) hfuel
        hr
    | bitMasked p mask vw length lsb d =>
      obtain ⟨rfl, rfl, hrc⟩ := hr.inv_option rfl
      obtain ⟨bm, h1, h2, h3, h4⟩ := toByteMasked_bit hg
      unfold JagOk
      simp only [jaggedF]
      rw [h1, bind_ok]
      simp only [rank, hgt] at hfuel
      refine (ih starts stops _ h3 (by simp only [rank, hgt]; omega)
        (.option rfl rfl (by simpa [children] using hrc)) hs).mono ?_ ?_
      · rintro ⟨g1, g2⟩
        simp only [len] at g1 g2 ⊢
        rw [h2]
        exact ⟨g1, fun i hi => by rw [h4 i hi]; exact g2 i hi⟩
      · rintro out ⟨g1, g2⟩
        simp only [len, h2] at g1 g2
        exact ⟨g1, g2.congr (fun i hi => by rw [h4 i hi])⟩
    | unmasked p d =>
      have hd : d.Good := good_unmasked.mp hg
      have hrd := hr.inv_index rfl d (by simp [children])
      unfold JagOk
      simp only [jaggedF]
      simp only [rank, hgt] at hfuel
      refine (ih starts stops d hd (by omega) hrd hs).bind ?_
      rintro out ⟨g1, g2⟩
      simp only [simplifyOption]
      split
      · exact .ok ⟨g1, g2.good, g2.len_le, g2.val⟩
      · exact .ok ⟨g1, good_unmasked.mpr g2.good, g2.len_le, g2.val⟩
    | record p keys cs length => exact jag_record ih hs hg hfuel hr

end
end Content
end Awk
