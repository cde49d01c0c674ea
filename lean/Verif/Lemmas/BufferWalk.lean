import Verif.Lemmas.Buffers
/-
What `fill` writes, `_form_to_layout` reads: the walk over the nodes.
-/

namespace Awk
open R

namespace Content

theorem Rebuilt.union {p : Params} {tags index : List Int} {cs cs' : List Content} {n : Int}
    (hg : (Content.union p tags index cs).Good) (hl : cs'.length = cs.length)
    (h : ∀ (t : Nat) (ht : t < cs.length) (ht' : t < cs'.length),
      Rebuilt cs[t] cs'[t] (usedByTag tags index t n.toNat))
    (hn : n ≤ (tags.length : Int)) :
    Rebuilt (.union p tags index cs) (.union p tags index cs') n := by
  obtain ⟨hi', hc, hp⟩ := good_union.mp hg
  refine ⟨hn, Nat.le_refl _, fun _ => rfl, ?_, ?_⟩
  · intro i hi
    have hit : i < tags.length := by omega
    have hii : i < index.length := by omega
    obtain ⟨h1, h2, h3, h4⟩ := hp i hit
    rw [valD_union hg hit hii h2]
    simp only [Content.val]
    rw [rd_nat_ok hit, bind_ok, rd_nat_ok hii, bind_ok, checkTag, if_neg (by omega), bind_ok]
    simp only
    have ht' : tags[i].toNat < cs'.length := by omega
    have hr := h _ h2 ht'
    have hu := (above_tag tags index tags[i].toNat n.toNat).2.1 index[i] (by
      rw [List.mem_map]
      refine ⟨(tags[i], index[i]), ?_, rfl⟩
      rw [List.mem_filter]
      refine ⟨?_, by simp; omega⟩
      have hz : i < ((tags.take n.toNat).zip (index.take n.toNat)).length := by
        simp only [List.length_zip, List.length_take]; omega
      have := List.getElem_mem hz
      simpa using this)
    have hge := hr.ge
    rw [valNth_eq ht', if_neg (by omega)]
    exact hr.val _ (by omega)
  · intro hs
    simp only [NoBitFields] at hs
    simp only [skeleton, skeletonAll_eq]
    congr 1
    apply List.ext_getElem (by simp [hl])
    intro t ht ht'
    simp only [List.getElem_map]
    simp only [List.length_map] at ht ht'
    exact (h t ht' ht).skel (NoBitFieldsAll_iff.mp hs _ (List.getElem_mem ht'))

end Content

/-! ### Reading what was written -/

/-- A walk over nodes `a` to `b - 1` writes no other buffers. -/
def Keeps (w : Walk) (a b : Nat) (before after : Container) : Prop :=
  ∀ key, (∀ j attr, a ≤ j → j < b → key ≠ w.nm.key j attr w.part) →
    after.lookup key = before.lookup key

/-- The buffers of nodes `a` to `b - 1` are those of `cont`. -/
def Reads (w : Walk) (a b : Nat) (cont : Container) (s : Source) : Prop :=
  s.fl = w.fl ∧ s.key_format = w.nm.key_format ∧ s.partnum = toString w.part ∧
    ∀ j attr, a ≤ j → j < b →
      s.container.lookup (w.nm.key j attr w.part) = cont.lookup (w.nm.key j attr w.part)

theorem Keeps.refl {w : Walk} {a b : Nat} (c : Container) : Keeps w a b c c := fun _ _ => rfl

theorem Keeps.trans {w : Walk} {a b : Nat} {c c' c'' : Container} (h : Keeps w a b c c')
    (h' : Keeps w a b c' c'') : Keeps w a b c c'' := fun k hk => (h' k hk).trans (h k hk)

theorem Keeps.mono {w : Walk} {a b a' b' : Nat} {c c' : Container} (h : Keeps w a b c c')
    (ha : a' ≤ a) (hb : b ≤ b') : Keeps w a' b' c c' :=
  fun k hk => h k (fun j attr h1 h2 => hk j attr (by omega) (by omega))

theorem keeps_put {w : Walk} {a b id : Nat} {attr : String} (c : Container) (buf : List Nat)
    (ha : a ≤ id) (hb : id < b) : Keeps w a b c (c.set (w.nm.key id attr w.part) buf) := by
  intro k hk
  have : k ≠ w.nm.key id attr w.part := hk id attr ha hb
  simp only [Container.set, List.lookup, beq_false_of_ne this]

theorem put_lookup {w : Walk} {id : Nat} {attr : String} (c : Container) (buf : List Nat) :
    (c.set (w.nm.key id attr w.part) buf).lookup (w.nm.key id attr w.part) = some buf := by
  simp [Container.set, List.lookup]

theorem Keeps.other {w : Walk} (hd : w.nm.Distinct) {a b : Nat} {c c' : Container}
    (h : Keeps w a b c c') {id : Nat} (attr : String) (hid : id < a ∨ b ≤ id) :
    c'.lookup (w.nm.key id attr w.part) = c.lookup (w.nm.key id attr w.part) := by
  refine h _ (fun j at' h1 h2 e => ?_)
  have := (hd _ _ _ _ _ _ e).1
  omega

theorem put_other {w : Walk} (hd : w.nm.Distinct) {id : Nat} {attr attr' : String} (c : Container)
    (buf : List Nat) (h : attr' ≠ attr) :
    (c.set (w.nm.key id attr w.part) buf).lookup (w.nm.key id attr' w.part)
      = c.lookup (w.nm.key id attr' w.part) := by
  have : w.nm.key id attr' w.part ≠ w.nm.key id attr w.part :=
    fun e => h (hd _ _ _ _ _ _ e).2.1
  simp only [Container.set, List.lookup, beq_false_of_ne this]

theorem Reads.sub {w : Walk} {a b a' b' : Nat} {c : Container} {s : Source} (h : Reads w a b c s)
    (ha : a ≤ a') (hb : b' ≤ b) : Reads w a' b' c s :=
  ⟨h.1, h.2.1, h.2.2.1, fun j attr h1 h2 => h.2.2.2 j attr (by omega) (by omega)⟩

theorem Reads.back {w : Walk} (hd : w.nm.Distinct) {a b a' b' : Nat} {c c' : Container}
    {s : Source} (h : Reads w a b c' s) (hk : Keeps w a' b' c c') (hab : b ≤ a' ∨ b' ≤ a) :
    Reads w a b c s :=
  ⟨h.1, h.2.1, h.2.2.1, fun j attr h1 h2 =>
    (h.2.2.2 j attr h1 h2).trans (hk.other hd attr (by omega))⟩

theorem Reads.get {w : Walk} {a b : Nat} {c : Container} {s : Source} (h : Reads w a b c s)
    {id : Nat} {attr : String} {buf : List Nat} (ha : a ≤ id) (hb : id < b)
    (hl : c.lookup (w.nm.key id attr w.part) = some buf) :
    s.container.get (s.key_format (w.nm.form_key id) attr s.partnum) = ok buf := by
  have := h.2.2.2 id attr ha hb
  rw [hl] at this
  unfold Container.get
  rw [h.2.1, h.2.2.1, show w.nm.key_format (w.nm.form_key id) attr (toString w.part)
    = w.nm.key id attr w.part from rfl, this]

theorem Reads.index {w : Walk} {a b : Nat} {c : Container} {s : Source} (h : Reads w a b c s)
    {id : Nat} {attr : String} {kind : IndexKind} {xs : List Int} (ha : a ≤ id) (hb : id < b)
    (hx : ∀ x ∈ xs, kind.Has x)
    (hl : c.lookup (w.nm.key id attr w.part) = some (xs.flatMap (leBytes kind.layout.2))) :
    s.index (w.nm.form_key id) attr kind = ok xs := by
  unfold Source.index
  rw [h.get ha hb hl, bind_ok, index_bytes hx]

mutual
/-- Field names of the form are distinct, and there is one for each content. -/
def Form.Named : Form → Prop
  | .empty .. => True
  | .numpy .. => True
  | .regular _ c _ _ => c.Named
  | .listArray _ _ _ c _ => c.Named
  | .listOffset _ _ c _ => c.Named
  | .indexed _ _ c _ => c.Named
  | .indexedOption _ _ c _ => c.Named
  | .byteMasked _ _ _ c _ => c.Named
  | .bitMasked _ _ _ _ c _ => c.Named
  | .unmasked _ c _ => c.Named
  | .record _ none cs _ => Form.NamedAll cs
  | .record _ (some ks) cs _ => ks.Nodup ∧ ks.length = cs.length ∧ Form.NamedAll cs
  | .union _ _ _ cs _ => Form.NamedAll cs
/-- `Form.Named` of every member. -/
def Form.NamedAll : List Form → Prop
  | [] => True
  | c :: cs => c.Named ∧ Form.NamedAll cs
end

theorem namedAll_iff {cs : List Form} : Form.NamedAll cs ↔ ∀ c ∈ cs, c.Named := by
  induction cs with
  | nil => simp [Form.NamedAll]
  | cons c cs ih => simp [Form.NamedAll, ih]

/-- The form asked for `n` items of `c`. -/
def Back (s : Source) (c : Content) (form : Form) : Prop :=
  ∀ n, Restorable c n → 0 ≤ n → n ≤ (c.len : Int) →
    ∃ c', formToLayout s form n = ok c' ∧ Content.Rebuilt c c' n

/-- What a call of `fill` does. -/
structure WalkDone (w : Walk) (id : Nat) (c : Content) (form : Form) (cont cont' : Container) :
    Prop where
  keeps : Keeps w id (id + c.nodes) cont cont'
  named : form.Named
  back : ∀ s, Reads w id (id + c.nodes) cont' s → Back s c form

theorem nodesAll_cons (c : Content) (cs : List Content) :
    Content.nodesAll (c :: cs) = c.nodes + Content.nodesAll cs := rfl

theorem fillEach_filled {w : Walk} (hd : w.nm.Distinct) {f : Nat}
    (ih : ∀ (c : Content) id cont, c.Good → c.rank ≤ f → Storable w.fl w.kind id c →
      ∃ form cont', fill w f c (id, cont) = ok (form, id + c.nodes, cont') ∧
        WalkDone w id c form cont cont') :
    ∀ (cs : List Content) (id : Nat) (cont : Container), (∀ c ∈ cs, c.Good) →
      (∀ c ∈ cs, c.rank ≤ f) →
      (∀ j c, cs[j]? = some c → Storable w.fl w.kind (id + Content.nodesAll (cs.take j)) c) →
      ∃ forms cont', fillEach (fill w f) cs (id, cont)
          = ok (forms, id + Content.nodesAll cs, cont') ∧
        Keeps w id (id + Content.nodesAll cs) cont cont' ∧ Form.NamedAll forms ∧
        ∀ s, Reads w id (id + Content.nodesAll cs) cont' s → List.Forall₂ (Back s) cs forms
  | [], id, cont, _, _, _ =>
    ⟨[], cont, rfl, Keeps.refl _, trivial, fun _ _ => .nil⟩
  | c :: cs, id, cont, hg, hr, hs => by
    obtain ⟨form, cont1, e1, h1⟩ := ih c id cont (hg c List.mem_cons_self)
      (hr c List.mem_cons_self) (hs 0 c rfl)
    obtain ⟨forms, cont2, e2, k2, n2, b2⟩ := fillEach_filled hd ih cs (id + c.nodes) cont1
      (fun d hd => hg d (List.mem_cons_of_mem _ hd)) (fun d hd => hr d (List.mem_cons_of_mem _ hd))
      (fun j d hj => by
        have := hs (j + 1) d (by simpa using hj)
        rw [List.take_succ_cons, nodesAll_cons] at this
        rwa [Nat.add_assoc])
    refine ⟨form :: forms, cont2, ?_, ?_, ⟨h1.named, n2⟩, ?_⟩
    · simp only [fillEach]
      rw [e1, bind_ok]
      simp only
      rw [e2, bind_ok, nodesAll_cons, Nat.add_assoc]
    · rw [nodesAll_cons]
      exact (h1.keeps.mono (Nat.le_refl _) (by omega)).trans (k2.mono (by omega) (by omega))
    · intro s hs
      rw [nodesAll_cons] at hs
      refine .cons (h1.back s ?_) (b2 s (hs.sub (by omega) (by omega)))
      exact (hs.sub (Nat.le_refl _) (by omega)).back hd k2 (by omega)

theorem fillEach_congr {α : Type} {F : α → Nat × Container → R (Form × Nat × Container)}
    {G : Content → Nat × Container → R (Form × Nat × Container)} {xs : List α} {cs : List Content}
    (h : List.Forall₂ (fun x c => ∀ st, F x st = G c st) xs cs) (st : Nat × Container) :
    fillEach F xs st = fillEach G cs st := by
  induction h generalizing st with
  | nil => rfl
  | cons hx _ ih => simp only [fillEach, hx, ih]

theorem formsToLayouts_eq (s : Source) (fs : List Form) :
    formsToLayouts s fs = fs.map (fun f => formToLayout s f) := by
  induction fs with
  | nil => rfl
  | cons f fs ih => simp only [formsToLayouts, ih, List.map_cons]

/-- The contents that a list of forms gives. -/
theorem backs {s : Source} {cs : List Content} {forms : List Form}
    (h : List.Forall₂ (Back s) cs forms) {n : Int} (hr : ∀ c ∈ cs, Restorable c n) (h0 : 0 ≤ n)
    (hn : ∀ c ∈ cs, n ≤ (c.len : Int)) :
    ∃ T : List (Content × Content), T.map (fun t => t.1) = cs ∧
      (∀ t ∈ T, Content.Rebuilt t.1 t.2 n) ∧
      List.Forall₂ (fun form t => formToLayout s form n = ok t.2) forms T := by
  induction h with
  | nil => exact ⟨[], rfl, by simp, .nil⟩
  | @cons c form cs forms hb _ ih =>
    obtain ⟨T, e, ht, hf⟩ := ih (fun d hd => hr d (List.mem_cons_of_mem _ hd))
      (fun d hd => hn d (List.mem_cons_of_mem _ hd))
    obtain ⟨c', e1, e2⟩ := hb n (hr c List.mem_cons_self) h0 (hn c List.mem_cons_self)
    refine ⟨(c, c') :: T, by simp [e], ?_, .cons e1 hf⟩
    intro t ht'
    rcases List.mem_cons.mp ht' with rfl | ht'
    · exact e2
    · exact ht t ht'

theorem newRecord_ok {p : Params} {keys : Option (List String)} {cs : List Content} {n : Int}
    (h : ∀ c ∈ cs, n ≤ (c.len : Int)) (h0 : 0 ≤ n) :
    newRecord p keys cs n = ok (.record p keys cs n.toNat) := by
  unfold newRecord
  rw [if_neg (by simpa using h), if_neg (by omega)]

theorem mapR_named {ks : List String} {g : Form → Int → R Content} {forms : List Form}
    {T : List (Content × Content)} {n : Int}
    (h : List.Forall₂ (fun form t => g form n = ok t.2) forms T) :
    mapR (fun item : String × (Int → R Content) => item.2 n) (ks.zip (forms.map g))
      = ok ((ks.zip T).map (fun b => b.2.2)) := by
  induction h generalizing ks with
  | nil => simp [mapR]
  | cons hr _ ih =>
    cases ks with
    | nil => simp [mapR]
    | cons k ks => simp only [List.map_cons, List.zip_cons_cons, mapR, hr, bind_ok, ih]

theorem forall₂_pairs {α β : Type} {P : α → β → Prop} {l : List α} {l' : List β}
    (h : List.Forall₂ P l l') :
    ∃ U : List (α × β), U.map (fun u => u.1) = l ∧ U.map (fun u => u.2) = l' ∧
      ∀ u ∈ U, P u.1 u.2 := by
  induction h with
  | nil => exact ⟨[], rfl, rfl, by simp⟩
  | @cons a b _ _ hr _ ih =>
    obtain ⟨U, h1, h2, h3⟩ := ih
    refine ⟨(a, b) :: U, by simp [h1], by simp [h2], ?_⟩
    intro u hu
    rcases List.mem_cons.mp hu with rfl | hu
    · exact hr
    · exact h3 u hu

theorem mapR_map_ok {α β : Type} {l : List α} {f : α → R β} {g : α → β}
    (h : ∀ x ∈ l, f x = ok (g x)) : mapR f l = ok (l.map g) := by
  induction l with
  | nil => rfl
  | cons x l ih =>
    simp only [mapR, List.map_cons]
    rw [h x List.mem_cons_self, bind_ok, ih (fun y hy => h y (List.mem_cons_of_mem _ hy)), bind_ok]

theorem mapR_get {α β : Type} {F : α → R β} {L : List α} {P : Nat → β → Prop}
    (h : ∀ t (ht : t < L.length), ∃ b, F L[t] = ok b ∧ P t b) :
    ∃ L', mapR F L = ok L' ∧ L'.length = L.length ∧ ∀ t (ht : t < L'.length), P t L'[t] := by
  induction L generalizing P with
  | nil => exact ⟨[], rfl, rfl, fun t ht => absurd ht (by simp)⟩
  | cons x L ih =>
    obtain ⟨b, e, hb⟩ := h 0 (by simp)
    obtain ⟨L', e', hl, hP⟩ := ih (P := fun t => P (t + 1)) (fun t ht => by
      have := h (t + 1) (by simpa using ht)
      simpa using this)
    refine ⟨b :: L', ?_, by simp [hl], ?_⟩
    · simp only [mapR]
      rw [List.getElem_cons_zero] at e
      rw [e, bind_ok, e', bind_ok]
    · intro t ht
      cases t with
      | zero => simpa using hb
      | succ t => simpa using hP t (by simpa using ht)

theorem mapR_map_left {α β γ : Type} {l : List α} {f : β → R γ} {g : α → β} :
    mapR f (l.map g) = mapR (fun x => f (g x)) l := by
  induction l with
  | nil => rfl
  | cons x l ih => simp only [mapR, List.map_cons, ih]

theorem mapR_sorted {ks : List String} {g : Form → Int → R Content} {forms : List Form}
    {T : List (Content × Content)} {n : Int}
    (h : List.Forall₂ (fun form t => g form n = ok t.2) forms T) :
    mapR (fun item : String × (Int → R Content) => item.2 n) (sortByName (ks.zip (forms.map g)))
      = ok ((sortByName (ks.zip T)).map (fun b => b.2.2)) := by
  obtain ⟨U, rfl, rfl, hU⟩ := forall₂_pairs h
  rw [List.map_map, zip_map_right', zip_map_right']
  have e1 := sortByName_map (g ∘ fun u : Form × (Content × Content) => u.1) (ks.zip U)
  have e2 := sortByName_map (fun u : Form × (Content × Content) => u.2) (ks.zip U)
  rw [e1, e2, mapR_map_left, List.map_map]
  exact mapR_map_ok (fun b hb => hU b.2
    (List.of_mem_zip ((sortByName_perm _).mem_iff.mp hb)).2)

theorem names_sorted {α β : Type} {ks : List String} {l : List α} {l' : List β}
    (h : l.length = l'.length) :
    (sortByName (ks.zip l)).map (fun b => b.1) = (sortByName (ks.zip l')).map (fun b => b.1) := by
  have e : ∀ {γ : Type} (m : List γ), (sortByName (ks.zip m)).map (fun b => b.1)
      = (sortByName (ks.zip (m.map (fun _ => ())))).map (fun b => b.1) := by
    intro γ m
    have := sortByName_map (fun _ : γ => ()) (ks.zip m)
    rw [zip_map_right', this, List.map_map]
    rfl
  rw [e l, e l']
  have : l.map (fun _ => ()) = l'.map (fun _ => ()) := by
    apply List.ext_getElem (by simpa using h)
    intros; rfl
  rw [this]

theorem bytes_has {mask : List Nat} (h : ∀ x ∈ mask, x < 256) :
    ∀ x ∈ mask.map Int.ofNat, IndexKind.u8.Has x := by
  intro x hx
  obtain ⟨y, hy, rfl⟩ := List.mem_map.mp hx
  have := h y hy
  simp only [IndexKind.Has, Int.ofNat_eq_natCast]
  omega

theorem wide_ok {k : IndexKind} (h : k ∈ [.i32, .u32, .i64]) : wideIndex k = ok () := by
  unfold wideIndex
  rw [if_pos (by simpa using h)]

/-- `fill` succeeds, and `_form_to_layout` reads what it wrote. -/
theorem fill_filled {w : Walk} (hd : w.nm.Distinct) : ∀ (f : Nat) (c : Content) (id : Nat)
    (cont : Container), c.Good → c.rank ≤ f → Storable w.fl w.kind id c →
      ∃ form cont', fill w f c (id, cont) = ok (form, id + c.nodes, cont') ∧
        WalkDone w id c form cont cont' := by
  intro f
  induction f with
  | zero =>
    intro c id cont _ hr
    exact absurd hr (by cases c <;> simp [Content.rank])
  | succ f ih =>
    intro c id cont hg hr hs
    have one : ∀ (d : Content) (cont1 : Container) (nodes : Nat), d.Good → d.rank ≤ f →
        Storable w.fl w.kind (id + 1) d → nodes = d.nodes + 1 →
        Keeps w id (id + nodes) cont cont1 →
        ∃ form cont', fill w f d (id + 1, cont1) = ok (form, id + nodes, cont') ∧
          Keeps w id (id + nodes) cont cont' ∧ form.Named ∧
          ∀ s, Reads w id (id + nodes) cont' s → Back s d form ∧
            ∀ attr, s.container.lookup (w.nm.key id attr w.part)
              = cont1.lookup (w.nm.key id attr w.part) := by
      intro d cont1 nodes h1 h2 h3 h4 h5
      obtain ⟨form, cont', e, hf⟩ := ih d (id + 1) cont1 h1 h2 h3
      refine ⟨form, cont', by rw [e, h4]; congr 3; omega,
        h5.trans (hf.keeps.mono (by omega) (by omega)), hf.named, fun s hs => ⟨?_, ?_⟩⟩
      · exact hf.back s (hs.sub (by omega) (by omega))
      · intro attr
        rw [hs.2.2.2 id attr (Nat.le_refl _) (by omega)]
        exact hf.keeps.other hd attr (by omega)
    have read : ∀ {nodes : Nat} {cont' : Container} {s : Source} {attr : String}
        {kind : IndexKind} {xs : List Int}, Reads w id (id + nodes) cont' s →
        (∀ x ∈ xs, kind.Has x) →
        s.container.lookup (w.nm.key id attr w.part) = some (xs.flatMap (leBytes kind.layout.2)) →
        s.index (w.nm.form_key id) attr kind = ok xs := by
      intro nodes cont' s attr kind xs hs hx hl
      have hs' : Reads w id (id + 1) s.container s := ⟨hs.1, hs.2.1, hs.2.2.1, fun _ _ _ _ => rfl⟩
      exact hs'.index (Nat.le_refl _) (by omega) hx hl
    cases hs with
    | empty =>
      rename_i p
      refine ⟨_, _, rfl, keeps_put _ _ (Nat.le_refl _) (by simp only [Content.nodes]; omega),
        trivial, ?_⟩
      intro s hs n hn h0 hle
      cases hn
      exact ⟨_, rfl, Content.Rebuilt.empty⟩
    | numpy hx =>
      rename_i p dt data
      refine ⟨_, _, rfl, keeps_put _ _ (Nat.le_refl _) (by simp only [Content.nodes]; omega),
        trivial, ?_⟩
      intro s hs n hn h0 hle
      simp only [Content.len] at hle
      refine ⟨.numpy p dt data, ?_, Content.Rebuilt.numpy hle⟩
      simp only [formToLayout]
      rw [hs.get (Nat.le_refl _) (by simp only [Content.nodes]; omega) (put_lookup _ _), bind_ok,
        if_neg, hs.1, data_bytes hx, bind_ok]
      rw [flatMap_length (fun x hx' => (atom_bytes (hx x hx')).1),
        Nat.mul_div_cancel _ (itemsize_pos dt)]
      omega
    | regular hs =>
      rename_i p c size zeros
      have hc := Content.good_regular.mp hg
      obtain ⟨form, cont', e, hk, hn, hb⟩ := one c cont _ hc
        (by have := hr; simp only [Content.rank] at this; omega) hs rfl (Keeps.refl _)
      refine ⟨.regular p form size (w.nm.form_key id), cont', ?_, ⟨hk, hn, ?_⟩⟩
      · simp only [fill]; rw [e, bind_ok]; rfl
      intro s hs n hn h0 hle
      cases hn with
      | regular hn =>
        have hle' : n * (size : Int) ≤ (c.len : Int) := by
          obtain ⟨m, rfl⟩ := Int.eq_ofNat_of_zero_le h0
          cases m with
          | zero => simp
          | succ m =>
            have := Content.regular_bound (p := p) (c := c) (size := size) (zeros := zeros) (i := m)
              (by omega)
            have : ((m + 1 : Nat) : Int) * (size : Int) = ((m * size + size : Nat) : Int) := by
              push_cast; ring
            rw [this]; omega
        obtain ⟨c', e', hr'⟩ := (hb s hs).1 _ hn (Int.mul_nonneg h0 (by omega)) hle'
        refine ⟨_, ?_, Content.Rebuilt.regular hg hr' h0 hle⟩
        simp only [formToLayout]
        rw [e', bind_ok, newRegular, if_neg (by omega)]
    | listArray hkind h1 h2 hs =>
      rename_i p starts stops c
      obtain ⟨hl, hc, hp⟩ := Content.good_listArray.mp hg
      obtain ⟨form, cont', e, hk, hn, hb⟩ := one c
        (w.putIndex (w.putIndex cont id "starts" (w.kind id) starts) id "stops" (w.kind id) stops)
        _ hc (by have := hr; simp only [Content.rank] at this; omega) hs rfl
        ((keeps_put _ _ (Nat.le_refl _) (by omega)).trans (keeps_put _ _ (Nat.le_refl _) (by omega)))
      refine ⟨.listArray p (w.kind id) (w.kind id) form (w.nm.form_key id), cont', ?_, ⟨hk, hn, ?_⟩⟩
      · simp only [fill]; rw [e, bind_ok]; rfl
      intro s hs n hn h0 hle
      simp only [Content.len] at hle
      cases hn with
      | listArray hn =>
        obtain ⟨hb, ha⟩ := hb s hs
        have i1 := read (attr := "starts") hs h1
          ((ha _).trans ((put_other hd _ _ (by decide)).trans (put_lookup _ _)))
        have i2 := read (attr := "stops") hs h2 ((ha _).trans (put_lookup _ _))
        have hab : ∀ ab ∈ (starts.take n.toNat).zip (stops.take n.toNat), ab.1 ≠ ab.2 →
            0 ≤ ab.1 ∧ ab.1 ≤ ab.2 ∧ ab.2 ≤ (c.len : Int) := by
          intro ab hab hne
          obtain ⟨i, hi, rfl⟩ := List.mem_iff_getElem.mp hab
          simp only [List.length_zip, List.length_take] at hi
          simp only [List.getElem_zip, List.getElem_take] at hne ⊢
          have := hp i (by omega)
          unfold GoodPair at this
          omega
        have hle' : usedByLists starts stops n.toNat ≤ (c.len : Int) := by
          refine (above_lists starts stops n.toNat).le (fun x hx => ?_)
          obtain ⟨ab, hab', rfl⟩ := List.mem_map.mp hx
          obtain ⟨hab', hne⟩ := List.mem_filter.mp hab'
          have := hab ab hab' (by simpa using hne)
          omega
        obtain ⟨c', e', hr'⟩ := hb _ hn (above_lists starts stops n.toNat).1 hle'
        refine ⟨_, ?_, Content.Rebuilt.listArray hg hr' rfl hle⟩
        simp only [formToLayout]
        rw [i1, bind_ok, i2, bind_ok, if_neg (by omega), if_neg (by omega),
          lists_ask (fun ab h hne => ⟨(hab ab h hne).1, (hab ab h hne).2.1⟩), bind_ok, e', bind_ok,
          wide_ok hkind, bind_ok, newListArray, if_neg (by omega)]
    | listOffset hkind h1 hs =>
      rename_i p offsets c
      obtain ⟨hl, hc, hp⟩ := Content.good_listOffset.mp hg
      obtain ⟨form, cont', e, hk, hn, hb⟩ := one c
        (w.putIndex cont id "offsets" (w.kind id) offsets)
        _ hc (by have := hr; simp only [Content.rank] at this; omega) hs rfl
        (keeps_put _ _ (Nat.le_refl _) (by omega))
      refine ⟨.listOffset p (w.kind id) form (w.nm.form_key id), cont', ?_, ⟨hk, hn, ?_⟩⟩
      · simp only [fill]; rw [e, bind_ok]; rfl
      intro s hs n hn h0 hle
      cases hn with
      | listOffset hlast h2 h3 hn =>
        obtain ⟨hb, ha⟩ := hb s hs
        have i1 := read (attr := "offsets") hs h1 ((ha _).trans (put_lookup _ _))
        obtain ⟨c', e', hr'⟩ := hb _ hn h2 h3
        refine ⟨_, ?_, Content.Rebuilt.listOffset hg hlast h2 hr' hle⟩
        simp only [Content.len] at hle
        simp only [formToLayout]
        rw [i1, bind_ok, if_neg (by omega), hlast]
        simp only [bind_ok]
        rw [e', bind_ok, wide_ok hkind, bind_ok, newListOffset, if_neg (by omega)]
    | indexed hkind h1 hs =>
      rename_i p index c
      obtain ⟨hc, hp⟩ := Content.good_indexed.mp hg
      obtain ⟨form, cont', e, hk, hn, hb⟩ := one c
        (w.putIndex cont id "index" (w.kind id) index)
        _ hc (by have := hr; simp only [Content.rank] at this; omega) hs rfl
        (keeps_put _ _ (Nat.le_refl _) (by omega))
      refine ⟨.indexed p (w.kind id) form (w.nm.form_key id), cont', ?_, ⟨hk, hn, ?_⟩⟩
      · simp only [fill]; rw [e, bind_ok]; rfl
      intro s hs n hn h0 hle
      simp only [Content.len] at hle
      cases hn with
      | indexed hn =>
        obtain ⟨hb, ha⟩ := hb s hs
        have i1 := read (attr := "index") hs h1 ((ha _).trans (put_lookup _ _))
        have hx : ∀ x ∈ index, 0 ≤ x ∧ x < (c.len : Int) := by
          intro x hx
          obtain ⟨i, hi, rfl⟩ := List.mem_iff_getElem.mp hx
          exact hp i hi
        obtain ⟨c', e', hr'⟩ := hb _ hn (above_index index).1
          ((above_index index).le (fun x h => (hx x h).2))
        refine ⟨_, ?_, Content.Rebuilt.indexed hg hr' hle⟩
        simp only [formToLayout]
        rw [i1, bind_ok, if_neg (by omega), (above_index index).ask (fun x h => (hx x h).1),
          bind_ok, e', bind_ok, wide_ok hkind, bind_ok]
    | indexedOption hkind h1 hs =>
      rename_i p index c
      obtain ⟨hc, hp⟩ := Content.good_indexedOption.mp hg
      obtain ⟨form, cont', e, hk, hn, hb⟩ := one c
        (w.putIndex cont id "index" (w.kind id) index)
        _ hc (by have := hr; simp only [Content.rank] at this; omega) hs rfl
        (keeps_put _ _ (Nat.le_refl _) (by omega))
      refine ⟨.indexedOption p (w.kind id) form (w.nm.form_key id), cont', ?_, ⟨hk, hn, ?_⟩⟩
      · simp only [fill]; rw [e, bind_ok]; rfl
      intro s hs n hn h0 hle
      simp only [Content.len] at hle
      cases hn with
      | indexedOption hn =>
        obtain ⟨hb, ha⟩ := hb s hs
        have i1 := read (attr := "index") hs h1 ((ha _).trans (put_lookup _ _))
        have hx : ∀ x ∈ index, x < (c.len : Int) := by
          intro x hx
          obtain ⟨i, hi, rfl⟩ := List.mem_iff_getElem.mp hx
          exact hp i hi
        obtain ⟨c', e', hr'⟩ := hb _ hn (above_index index).1 ((above_index index).le hx)
        refine ⟨_, ?_, Content.Rebuilt.indexedOption hg hr' hle⟩
        simp only [formToLayout]
        rw [i1, bind_ok, if_neg (by omega), (above_index index).ask_option, bind_ok, e', bind_ok,
          if_pos (by simpa using hkind)]
    | byteMasked h1 hs =>
      rename_i p mask vw c
      obtain ⟨hl, hc⟩ := Content.good_byteMasked.mp hg
      obtain ⟨form, cont', e, hk, hn, hb⟩ := one c (w.putIndex cont id "mask" .i8 mask)
        _ hc (by have := hr; simp only [Content.rank] at this; omega) hs rfl
        (keeps_put _ _ (Nat.le_refl _) (by omega))
      refine ⟨.byteMasked p .i8 vw form (w.nm.form_key id), cont', ?_, ⟨hk, hn, ?_⟩⟩
      · simp only [fill]; rw [e, bind_ok]; rfl
      intro s hs n hn h0 hle
      simp only [Content.len] at hle
      cases hn with
      | byteMasked hm hn =>
        obtain ⟨hb, ha⟩ := hb s hs
        have i1 := read (attr := "mask") hs h1 ((ha _).trans (put_lookup _ _))
        obtain ⟨c', e', hr'⟩ := hb _ hn h0 (by omega)
        refine ⟨_, ?_, Content.Rebuilt.byteMasked hg hr' hle⟩
        have hge := hr'.ge
        simp only [formToLayout]
        rw [i1, bind_ok, if_neg (by omega), e', bind_ok, newByteMasked, if_neg]
        rcases hm with hm | hm
        · omega
        · have := hr'.full hm
          omega
    | bitMasked h1 hs =>
      rename_i p mask vw length lsb c
      obtain ⟨hm, hl, hc⟩ := Content.good_bitMasked.mp hg
      obtain ⟨form, cont', e, hk, hn, hb⟩ := one c
        (w.putIndex cont id "mask" .u8 (mask.map Int.ofNat))
        _ hc (by have := hr; simp only [Content.rank] at this; omega) hs rfl
        (keeps_put _ _ (Nat.le_refl _) (by omega))
      refine ⟨.bitMasked p .u8 vw lsb form (w.nm.form_key id), cont', ?_, ⟨hk, hn, ?_⟩⟩
      · simp only [fill]; rw [e, bind_ok]; rfl
      intro s hs n hn h0 hle
      simp only [Content.len] at hle
      cases hn with
      | bitMasked hn =>
        obtain ⟨hb, ha⟩ := hb s hs
        have i1 := read (attr := "mask") hs (bytes_has h1) ((ha _).trans (put_lookup _ _))
        obtain ⟨c', e', hr'⟩ := hb _ hn h0 (by omega)
        refine ⟨_, ?_, Content.Rebuilt.bitMasked hg hr' h0 hle⟩
        have hge := hr'.ge
        simp only [formToLayout]
        rw [i1, bind_ok, e', bind_ok, List.length_map, if_neg (by omega), newBitMasked,
          List.length_map, if_neg (by split <;> omega), if_neg (by omega), List.map_map]
        congr 2
        conv => rhs; rw [← List.map_id mask]
        apply List.map_congr_left
        intro x _
        rfl
    | unmasked hs =>
      rename_i p c
      have hc := Content.good_unmasked.mp hg
      obtain ⟨form, cont', e, hk, hn, hb⟩ := one c cont _ hc
        (by have := hr; simp only [Content.rank] at this; omega) hs rfl (Keeps.refl _)
      refine ⟨.unmasked p form (w.nm.form_key id), cont', ?_, ⟨hk, hn, ?_⟩⟩
      · simp only [fill]; rw [e, bind_ok]; rfl
      intro s hs n hn h0 hle
      cases hn with
      | unmasked hn =>
        obtain ⟨c', e', hr'⟩ := (hb s hs).1 _ hn h0 hle
        exact ⟨_, by simp only [formToLayout]; rw [e', bind_ok], hr'.unmasked⟩
    | tuple hs =>
      rename_i p cs length
      obtain ⟨hl, hc⟩ := Content.good_record.mp hg
      obtain ⟨forms, cont', e, hk, hn, hb⟩ := fillEach_filled hd ih cs (id + 1) cont hc
        (by have := hr; simp only [Content.rank] at this
            exact fun c h => by have := Content.rank_le_rankAll h; omega) hs
      have hnodes : id + (Content.record p none cs length).nodes
          = id + 1 + Content.nodesAll cs := by simp only [Content.nodes]; omega
      refine ⟨.record p none forms (w.nm.form_key id), cont', ?_, ⟨by rw [hnodes]; exact hk.mono (by omega) (Nat.le_refl _), hn, ?_⟩⟩
      · simp only [fill]; rw [e, bind_ok, hnodes]
      intro s hs n hn h0 hle
      simp only [Content.len] at hle
      cases hn with
      | tuple hn =>
        rw [hnodes] at hs
        obtain ⟨T, rfl, hT, hF⟩ := backs (hb s (hs.sub (by omega) (Nat.le_refl _))) hn h0
          (fun c hc => by have := hl c hc; omega)
        refine ⟨_, ?_, Content.Rebuilt.tuple hg hT h0 hle⟩
        have hlen : forms.length = T.length := hF.length_eq
        simp only [formToLayout, formsToLayouts_eq]
        rw [recordItems_tuple, mapR_named hF, bind_ok]
        simp only [Option.map_none]
        have : (((List.range (forms.map (fun f => formToLayout s f)).length).map
            (fun i => toString i)).zip T).map (fun b => b.2.2) = T.map (fun t => t.2) := by
          rw [show (fun b : String × (Content × Content) => b.2.2)
            = (fun t : Content × Content => t.2) ∘ (fun b => b.2) from rfl, ← List.map_map,
            List.map_snd_zip (by simp [hlen])]
        rw [this]
        refine newRecord_ok (fun c hc => ?_) h0
        obtain ⟨t, ht, rfl⟩ := List.mem_map.mp hc
        exact (hT t ht).ge
    | record hnd hkl hrf hs =>
      rename_i p ks cs fields length
      obtain ⟨hl, hc⟩ := Content.good_record.mp hg
      have hff := Content.rangeFields_forall₂ hrf
      have hfl : fields.length = cs.length := hff.length_eq.symm
      have good : ∀ d ∈ fields, d.Good ∧ d.rank ≤ f ∧ d.len = length := by
        intro d hd'
        obtain ⟨c, hcm, e⟩ := Content.forall₂_right_mem hff hd'
        obtain ⟨d', e1, e2, e3, e4, _⟩ := Content.range_good (hc c hcm) (Nat.zero_le length)
          (hl c hcm)
        rw [show ((0 : Nat) : Int) = 0 from rfl, e] at e1
        cases e1
        have := hr
        simp only [Content.rank] at this
        have := Content.rank_le_rankAll hcm
        exact ⟨e2, by omega, by simpa using e4.1⟩
      obtain ⟨forms, cont', e, hk, hn, hb⟩ := fillEach_filled hd ih fields (id + 1) cont
        (fun d h => (good d h).1) (fun d h => (good d h).2.1) hs
      have hcongr : ∀ st, fillEach (fun k st => Content.fieldOfKey (some ks) cs k >>= fun c =>
          c.range 0 length >>= fun c => fill w f c st) ks st
          = fillEach (fill w f) fields st := by
        refine fillEach_congr (List.forall₂_iff_get.mpr ⟨by omega, fun i h1 h2 st => ?_⟩)
        obtain ⟨d', e1, e2⟩ := Content.rangeFields_get hrf
          (List.getElem?_eq_getElem (show i < cs.length by omega))
        have hnm : Content.Named (some ks) cs.length ks[i] i := by
          refine ⟨by omega, List.getElem?_eq_getElem h1, ?_⟩
          intro j hj hje
          obtain ⟨hj', hje⟩ := List.getElem?_eq_some_iff.mp hje
          exact List.pairwise_iff_getElem.mp hnd j i hj' h1 hj hje
        simp only [List.get_eq_getElem]
        rw [Content.fieldOfKey, fieldIndex_ok hnm, bind_ok,
          rd_nat_ok (show i < cs.length by omega), bind_ok, e2, bind_ok]
        rw [List.getElem?_eq_getElem h2] at e1
        cases e1
        rfl
      have hnodes : id + (Content.record p (some ks) cs length).nodes
          = id + 1 + Content.nodesAll fields := by
        simp only [Content.nodes]
        rw [Content.nodesAll_congr (Content.forall₂_imp_left hff
          (fun c _ d h => Content.range_nodes h))]
        omega
      have hfl' : forms.length = fields.length :=
        (hb ⟨w.fl, w.nm.key_format, cont', toString w.part⟩
          ⟨rfl, rfl, rfl, fun _ _ _ _ => rfl⟩).length_eq.symm
      refine ⟨.record p (some ks) forms (w.nm.form_key id), cont', ?_,
        ⟨by rw [hnodes]; exact hk.mono (by omega) (Nat.le_refl _), ⟨hnd, by omega, hn⟩, ?_⟩⟩
      · simp only [fill]; rw [hcongr, e, bind_ok, hnodes]
      intro s hs n hn h0 hle
      simp only [Content.len] at hle
      cases hn with
      | record hrf' hn =>
        rw [hrf] at hrf'
        cases hrf'
        rw [hnodes] at hs
        obtain ⟨T, rfl, hT, hF⟩ := backs (hb s (hs.sub (by omega) (Nat.le_refl _))) hn h0
          (fun c hc => by have := (good c hc).2.2; omega)
        refine ⟨_, ?_, Content.Rebuilt.record hnd hkl hg hrf hT h0 hle⟩
        have hlen : forms.length = T.length := hF.length_eq
        simp only [formToLayout, formsToLayouts_eq]
        rw [recordItems_record hnd (by simp; omega), mapR_sorted hF, bind_ok]
        simp only [Option.map_some]
        rw [names_sorted (l' := T) (by simpa using hlen)]
        refine newRecord_ok (fun c hc => ?_) h0
        obtain ⟨t, ht, rfl⟩ := List.mem_map.mp hc
        exact (hT t.2 (List.of_mem_zip ((sortByName_perm _).mem_iff.mp ht)).2).ge
    | union hkind h1 h2 hne hs =>
      rename_i p tags index cs
      obtain ⟨hl, hc, hp⟩ := Content.good_union.mp hg
      obtain ⟨forms, cont', e, hk, hn, hb⟩ := fillEach_filled hd ih cs (id + 1) cont hc
        (by have := hr; simp only [Content.rank] at this
            exact fun c h => by have := Content.rank_le_rankAll h; omega) hs
      have hnodes : id + (Content.union p tags index cs).nodes
          = id + 1 + Content.nodesAll cs := by simp only [Content.nodes]; omega
      have hput : ∀ b, id < b → Keeps w id b cont'
          (w.putIndex (w.putIndex cont' id "tags" .i8 tags) id "index" (w.kind id) index) :=
        fun b hb => (keeps_put _ _ (Nat.le_refl _) hb).trans (keeps_put _ _ (Nat.le_refl _) hb)
      refine ⟨.union p .i8 (w.kind id) forms (w.nm.form_key id),
        w.putIndex (w.putIndex cont' id "tags" .i8 tags) id "index" (w.kind id) index, ?_,
        ⟨by rw [hnodes]; exact (hk.mono (by omega) (Nat.le_refl _)).trans (hput _ (by omega)),
          hn, ?_⟩⟩
      · simp only [fill]; rw [e, bind_ok, hnodes]
      intro s hs n hn h0 hle
      simp only [Content.len] at hle
      cases hn with
      | union hn =>
        rw [hnodes] at hs
        have hF := hb s ((hs.sub (by omega) (Nat.le_refl _)).back hd (hput (id + 1) (by omega))
          (by omega))
        have i1 : s.index (w.nm.form_key id) "tags" .i8 = ok tags :=
          hs.index (Nat.le_refl _) (by omega) h1
            ((put_other hd _ _ (by decide)).trans (put_lookup _ _))
        have i2 : s.index (w.nm.form_key id) "index" (w.kind id) = ok index :=
          hs.index (Nat.le_refl _) (by omega) h2 (put_lookup _ _)
        have hlen : forms.length = cs.length := hF.length_eq.symm
        have hmine : ∀ (t : Nat) (ht : t < cs.length) x,
            x ∈ (((tags.take n.toNat).zip (index.take n.toNat)).filter
              (fun ti => decide (ti.1 = (t : Int)))).map (fun ti => ti.2) →
            0 ≤ x ∧ x < (cs[t].len : Int) := by
          intro t ht x hx
          obtain ⟨ti, hti, rfl⟩ := List.mem_map.mp hx
          obtain ⟨hti, he⟩ := List.mem_filter.mp hti
          obtain ⟨i, hi, rfl⟩ := List.mem_iff_getElem.mp hti
          simp only [List.length_zip, List.length_take] at hi
          simp only [List.getElem_zip, List.getElem_take, decide_eq_true_eq] at he ⊢
          obtain ⟨g1, g2, g3, g4⟩ := hp i (by omega)
          have ht' : tags[i].toNat = t := by omega
          exact ⟨g3, by simpa only [ht'] using g4⟩
        have each : ∀ t (ht : t < cs.length) (ht' : t < forms.length), ∃ c',
            formToLayout s forms[t] (usedByTag tags index t n.toNat) = ok c' ∧
              Content.Rebuilt cs[t] c' (usedByTag tags index t n.toNat) := by
          intro t ht ht'
          have hB := (List.forall₂_iff_get.mp hF).2 t ht ht'
          exact hB _ (hn t _ (List.getElem?_eq_getElem ht)) (above_tag tags index t n.toNat).1
            ((above_tag tags index t n.toNat).le (fun x hx => (hmine t ht x hx).2))
        have hmap : ∃ cs', mapR (fun (fi : (Int → R Content) × Nat) =>
            (if ((((tags.take n.toNat).zip (index.take n.toNat)).filter
              (fun ti => decide (ti.1 = (fi.2 : Int)))).map (fun ti => ti.2)).length = 0 then ok 0
              else npMax ((((tags.take n.toNat).zip (index.take n.toNat)).filter
                (fun ti => decide (ti.1 = (fi.2 : Int)))).map (fun ti => ti.2))
                >>= fun m => ok (m + 1)) >>= fun n => fi.1 n)
              (forms.map (fun f => formToLayout s f)).zipIdx = ok cs' ∧
            ∃ hl' : cs'.length = cs.length, ∀ (t : Nat) (ht : t < cs.length) (ht' : t < cs'.length),
              Content.Rebuilt cs[t] cs'[t] (usedByTag tags index t n.toNat) := by
          obtain ⟨cs', e1, e2, e3⟩ := mapR_get
            (F := fun (fi : (Int → R Content) × Nat) =>
              (if ((((tags.take n.toNat).zip (index.take n.toNat)).filter
              (fun ti => decide (ti.1 = (fi.2 : Int)))).map (fun ti => ti.2)).length = 0 then ok 0
              else npMax ((((tags.take n.toNat).zip (index.take n.toNat)).filter
                (fun ti => decide (ti.1 = (fi.2 : Int)))).map (fun ti => ti.2))
                >>= fun m => ok (m + 1)) >>= fun n => fi.1 n)
            (L := (forms.map (fun f => formToLayout s f)).zipIdx)
            (P := fun t c' => ∀ ht : t < cs.length,
              Content.Rebuilt cs[t] c' (usedByTag tags index t n.toNat)) (by
              intro t ht
              simp only [List.length_zipIdx, List.length_map] at ht
              obtain ⟨c', h1, h2⟩ := each t (by omega) ht
              refine ⟨c', ?_, fun _ => h2⟩
              simp only [List.getElem_zipIdx, List.getElem_map, Nat.zero_add]
              rw [(above_tag tags index t n.toNat).ask
                (fun x hx => (hmine t (by omega) x hx).1), bind_ok, h1])
          exact ⟨cs', e1, by simpa [hlen] using e2, fun t ht ht' => e3 t ht' ht⟩
        obtain ⟨cs', e1, hl', hR⟩ := hmap
        refine ⟨_, ?_, Content.Rebuilt.union hg hl' hR hle⟩
        simp only [formToLayout, formsToLayouts_eq]
        rw [i1, bind_ok, i2, bind_ok, if_neg (by omega), if_neg (by omega), e1, bind_ok,
          wide_ok hkind, bind_ok, newUnion, if_neg, if_neg (by omega)]
        cases cs with
        | nil => exact absurd rfl hne
        | cons c cs => cases cs' with
          | nil => simp at hl'
          | cons => simp

end Awk
