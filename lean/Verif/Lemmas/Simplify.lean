import Verif.Lemmas.Mergeable
/-
`simplify_uniontype` keeps the elements.
-/

namespace Awk
open R

/-- What the `simplify` kernels write: position `i` gets `(towhich, k + base)` if `sel i` is `k`. -/
structure SelFill (n : Nat) (sel : Nat → Option Int) (towhich base : Nat)
    (a b : List Int × List Int) : Prop where
  len1 : b.1.length = n
  len2 : b.2.length = n
  hit : ∀ i k, i < n → sel i = some k → b.1[i]? = some (towhich : Int) ∧ b.2[i]? = some (k + base)
  miss : ∀ i, i < n → sel i = none → b.1[i]? = a.1[i]? ∧ b.2[i]? = a.2[i]?

theorem selFill_forN {n : Nat} {sel : Nat → Option Int} {towhich base : Nat}
    {body : Nat → List Int × List Int → R (List Int × List Int)} {s : List Int × List Int}
    (h1 : s.1.length = n) (h2 : s.2.length = n)
    (hb : ∀ i st, i < n → st.1.length = n → st.2.length = n → body i st = match sel i with
      | some k => ok (st.1.set i (towhich : Int), st.2.set i (k + base))
      | none => ok st) :
    ∃ b, forN n body s = ok b ∧ SelFill n sel towhich base s b := by
  obtain ⟨b, hb1, l1, l2, hp⟩ := forN_inv (n := n) (body := body) (s := s)
    (fun m st => st.1.length = n ∧ st.2.length = n ∧ ∀ i, i < n →
      (i < m → ∀ k, sel i = some k → st.1[i]? = some (towhich : Int) ∧ st.2[i]? = some (k + base)) ∧
      (m ≤ i ∨ sel i = none → st.1[i]? = s.1[i]? ∧ st.2[i]? = s.2[i]?))
    ⟨h1, h2, fun i _ => ⟨fun h => by omega, fun _ => ⟨rfl, rfl⟩⟩⟩
    (by
      rintro m hm st ⟨l1, l2, hp⟩
      rw [hb m st hm l1 l2]
      cases hs : sel m with
      | none =>
        refine ⟨st, rfl, l1, l2, fun i hi => ⟨fun him k hk => ?_, fun him => ?_⟩⟩
        · by_cases h : i = m
          · subst h; rw [hs] at hk; cases hk
          · exact (hp i hi).1 (by omega) k hk
        · exact (hp i hi).2 (him.imp (by omega) id)
      | some k =>
        refine ⟨_, rfl, by simpa using l1, by simpa using l2, fun i hi => ⟨fun him k' hk => ?_,
          fun him => ?_⟩⟩
        · by_cases h : i = m
          · subst h
            rw [hs] at hk
            injection hk with hk
            subst hk
            simp [l1, l2, hi]
          · simp only [List.getElem?_set_ne (Ne.symm h)]
            exact (hp i hi).1 (by omega) k' hk
        · have h : i ≠ m := by
            rintro rfl
            rcases him with h | h
            · omega
            · rw [hs] at h; cases h
          simp only [List.getElem?_set_ne (Ne.symm h)]
          exact (hp i hi).2 (him.imp (by omega) id))
  exact ⟨b, hb1, l1, l2, fun i k hi hk => (hp i hi).1 hi k hk, fun i hi hs => (hp i hi).2 (.inr hs)⟩

/-- The positions of alternative `w`. -/
def selOne (tags index : List Int) (w : Nat) (i : Nat) : Option Int :=
  if tags[i]? = some (w : Int) then index[i]? else none

theorem simplify_one_ok {totags toindex tags index : List Int} {towhich w base : Nat}
    (h1 : totags.length = tags.length) (h2 : toindex.length = tags.length)
    (hl : tags.length ≤ index.length) :
    ∃ b, UnionArray_simplify_one totags toindex tags index towhich w tags.length base = ok b ∧
      SelFill tags.length (selOne tags index w) towhich base (totags, toindex) b := by
  unfold UnionArray_simplify_one
  refine selFill_forN h1 h2 (fun i st hi g1 g2 => ?_)
  rw [rd_nat_ok hi, bind_ok]
  unfold selOne
  rw [List.getElem?_eq_getElem hi]
  by_cases ht : tags[i] = (w : Int)
  · rw [if_pos ht, if_pos (by rw [ht]), List.getElem?_eq_getElem (by omega), wr_nat_ok (by omega),
      bind_ok, rd_nat_ok (by omega), bind_ok, wr_nat_ok (by omega), bind_ok]
  · rw [if_neg ht, if_neg (by simpa using ht)]

/-- The positions of alternative `j` of the nested union `w`. -/
def selTwo (tags index itags iindex : List Int) (w j : Nat) (i : Nat) : Option Int :=
  (selOne tags index w i).bind (fun x => selOne itags iindex j x.toNat)

theorem simplify_ok {totags toindex tags index itags iindex : List Int} {towhich j w base : Nat}
    (h1 : totags.length = tags.length) (h2 : toindex.length = tags.length)
    (hl : tags.length ≤ index.length) (hil : itags.length ≤ iindex.length)
    (hx : ∀ i x, i < tags.length → selOne tags index w i = some x → 0 ≤ x ∧ x < itags.length) :
    ∃ b, UnionArray_simplify totags toindex tags index itags iindex towhich j w tags.length base
        = ok b ∧
      SelFill tags.length (selTwo tags index itags iindex w j) towhich base (totags, toindex) b := by
  unfold UnionArray_simplify
  refine selFill_forN h1 h2 (fun i st hi g1 g2 => ?_)
  rw [rd_nat_ok hi, bind_ok]
  have hx := hx i
  unfold selTwo
  unfold selOne at hx ⊢
  rw [List.getElem?_eq_getElem hi] at hx ⊢
  by_cases ht : tags[i] = (w : Int)
  · rw [if_pos ht, if_pos (by rw [ht]), List.getElem?_eq_getElem (by omega), rd_nat_ok (by omega),
      bind_ok]
    obtain ⟨e1, e2⟩ := hx index[i] hi (by
      rw [if_pos (by rw [ht]), List.getElem?_eq_getElem (by omega)])
    obtain ⟨x, hxe⟩ : ∃ x : Nat, index[i] = (x : Int) := ⟨index[i].toNat, by omega⟩
    rw [hxe, rd_nat_ok (by omega), bind_ok]
    simp only [Option.bind_some, Int.toNat_natCast]
    rw [List.getElem?_eq_getElem (by omega)]
    by_cases hu : itags[x]'(by omega) = (j : Int)
    · rw [if_pos hu, if_pos (by rw [hu]), List.getElem?_eq_getElem (by omega), wr_nat_ok (by omega),
        bind_ok, rd_nat_ok (by omega), bind_ok, wr_nat_ok (by omega), bind_ok]
    · rw [if_neg hu, if_neg (by simpa using hu)]
  · rw [if_neg ht, if_neg (by simpa using ht)]; simp

namespace Content

theorem findSlot_spec {same : Content → Content → Bool} {domerge mb chk : Bool} {c : Content}
    {cs : List Content} {k0 k : Nat} {s : Bool} {d : Content}
    (h : findSlot same domerge mb chk c cs k0 = some (k, s, d)) :
    k0 ≤ k ∧ cs[k - k0]? = some d ∧ (s = true → same d c = true) ∧
      (s = false → domerge = true ∧ mergeable mb d c = true) := by
  induction cs generalizing k0 with
  | nil => simp [findSlot] at h
  | cons e cs ih =>
    simp only [findSlot] at h
    split at h
    · rename_i hs
      simp only [Bool.and_eq_true] at hs
      simp only [Option.some.injEq, Prod.mk.injEq] at h
      obtain ⟨rfl, rfl, rfl⟩ := h
      exact ⟨Nat.le_refl _, by simp, fun _ => hs.2, by simp⟩
    · split at h
      · rename_i hs
        simp only [Bool.and_eq_true] at hs
        simp only [Option.some.injEq, Prod.mk.injEq] at h
        obtain ⟨rfl, rfl, rfl⟩ := h
        exact ⟨Nat.le_refl _, by simp, by simp, fun _ => hs⟩
      · obtain ⟨h1, h2, h3⟩ := ih h
        refine ⟨by omega, ?_, h3⟩
        rw [show k - k0 = (k - (k0 + 1)) + 1 by omega, List.getElem?_cons_succ]
        exact h2

/-- The elements, seen through `f`. -/
def view (f : Val → Val) (c : Content) : List Val := (List.range c.len).map (fun i => f (c.valD i))

theorem cv_eq_view (c : Content) : c.cv = view Val.canon c := rfl

@[simp] theorem view_length (f : Val → Val) (c : Content) : (view f c).length = c.len := by
  simp [view]

theorem view_get? {f : Val → Val} {c : Content} {i : Nat} :
    (view f c)[i]? = if i < c.len then some (f (c.valD i)) else none := by
  simp only [view, List.getElem?_map]
  split
  · rename_i h; simp [List.getElem?_range h]
  · rename_i h; simp [List.getElem?_eq_none (show (List.range c.len).length ≤ i by simpa using h)]

theorem view_union {f : Val → Val} {p : Params} {tags index : List Int} {cs : List Content}
    (h : (union p tags index cs).Good) :
    view f (union p tags index cs) = List.zipWith (uk (cs.map (view f))) tags index := by
  obtain ⟨hl, hc, hp⟩ := good_union.mp h
  apply List.ext_getElem?
  intro i
  rw [List.getElem?_zipWith, view_get?]
  by_cases hi : i < tags.length
  · obtain ⟨g1, g2, g3, g4⟩ := hp i hi
    rw [if_pos (by exact hi), valD_union h hi (by omega) g2, List.getElem?_eq_getElem hi,
      List.getElem?_eq_getElem (by omega)]
    simp only [uk, List.getElem?_map, List.getElem?_eq_getElem g2, Option.map_some,
      Option.getD_some]
    rw [view_get?, if_pos (by omega)]; simp
  · rw [if_neg (by exact hi), List.getElem?_eq_none (by omega)]

/-- Element `k` is what is wanted at position `i`. -/
def At (S : Nat → Val → Prop) (c : Content) (i k : Nat) : Prop := k < c.len ∧ S i (c.valD k)

/-- The elements through `f` are those of `V`. -/
def Seen (f : Val → Val) (V : Nat → Val) (i : Nat) (v : Val) : Prop := f v = V i

theorem at_seen {f : Val → Val} {V : Nat → Val} {c : Content} {i k : Nat} :
    At (Seen f V) c i k ↔ (view f c)[k]? = some (V i) := by
  rw [view_get?]
  unfold At Seen
  split <;> simp [*]

/-- The tag and the index select what is wanted at position `i`. -/
def Points (S : Nat → Val → Prop) (cs : List Content) (t x : Int) (i : Nat) : Prop :=
  0 ≤ t ∧ 0 ≤ x ∧ ∃ c, cs[t.toNat]? = some c ∧ At S c i x.toNat

/-- The positions in `D` are done. -/
structure SInv (S : Nat → Val → Prop) (Q : Content → Prop) (n : Nat) (D : Nat → Prop)
    (st : SimplifyState) : Prop where
  len1 : st.1.length = n
  len2 : st.2.1.length = n
  input : ∀ c ∈ st.2.2, Q c
  points : ∀ i, i < n → D i → ∃ t x, st.1[i]? = some t ∧ st.2.1[i]? = some x ∧
    Points S st.2.2 t x i

/-- The elements of `m` are as good as those of `d` followed by those of `c`. -/
def Joins (S : Nat → Val → Prop) (d c m : Content) : Prop :=
  (∀ i k, At S d i k → At S m i k) ∧ ∀ i k, At S c i k → At S m i (k + d.len)

theorem joins_of_view {f : Val → Val} {V : Nat → Val} {d c m : Content}
    (h : view f m = view f d ++ view f c) : Joins (Seen f V) d c m := by
  constructor
  · intro i k hk
    rw [at_seen] at hk ⊢
    rw [h, List.getElem?_append_left (List.getElem?_eq_some_iff.mp hk).1]
    exact hk
  · intro i k hk
    rw [at_seen] at hk ⊢
    rw [h, List.getElem?_append_right (by simp), view_length, Nat.add_sub_cancel]
    exact hk

theorem placeContent_ok {same : Content → Content → Bool} (hsame : ∀ a b, same a b = true → a = b)
    {S : Nat → Val → Prop} {Q Q' : Content → Prop} {h : Prop} {domerge mb chk : Bool}
    {fill : Nat → Nat → List Int → List Int → R (List Int × List Int)} {c : Content} {n : Nat}
    {D : Nat → Prop} {st : SimplifyState} {sel : Nat → Option Int}
    (hfill : ∀ w base T X, T.length = n → X.length = n → ∃ b, fill w base T X = ok b ∧
      SelFill n sel w base (T, X) b)
    (hsel : ∀ i k, i < n → sel i = some k → 0 ≤ k ∧ At S c i k.toNat)
    (hQ : ∀ d, Q d → Q' d) (hc : Q' c)
    (hmerge : ∀ d ∈ st.2.2, domerge = true → mergeable mb d c = true →
      (mergemany d [c]).Tot h (fun m => Q' m ∧ Joins S d c m))
    (hi : SInv S Q n D st) :
    (placeContent same domerge mb chk fill c st).Tot h (fun st' =>
      SInv S Q' n (fun i => D i ∨ (sel i).isSome = true) st' ∧
        st'.2.2.length ≤ st.2.2.length + 1) := by
  -- the new positions point into the content at `k`, after `base` elements
  have key : ∀ (k base : Nat) (b : List Int × List Int) (cs' : List Content) (m : Content),
      SelFill n sel k base (st.1, st.2.1) b → cs'[k]? = some m →
      (∀ (i k : Nat), At S c i k → At S m i (k + base)) →
      (∀ t x i, Points S st.2.2 t x i → Points S cs' t x i) → (∀ d ∈ cs', Q' d) →
      SInv S Q' n (fun i => D i ∨ (sel i).isSome = true) (b.1, b.2, cs') := by
    intro k base b cs' m hb hk hm hold hin
    refine ⟨hb.len1, hb.len2, hin, fun i hi' hD => ?_⟩
    cases hs : sel i with
    | none =>
      obtain ⟨e1, e2⟩ := hb.miss i hi' hs
      rw [hs] at hD
      simp only [Option.isSome_none, Bool.false_eq_true, or_false] at hD
      obtain ⟨t, x, g1, g2, g3⟩ := hi.points i hi' hD
      exact ⟨t, x, by rw [e1]; exact g1, by rw [e2]; exact g2, hold _ _ _ g3⟩
    | some j =>
      obtain ⟨e1, e2⟩ := hb.hit i j hi' hs
      obtain ⟨g1, g2⟩ := hsel i j hi' hs
      refine ⟨_, _, e1, e2, by omega, by omega, m, by simpa using hk, ?_⟩
      rw [show (j + (base : Int)).toNat = j.toNat + base by omega]
      exact hm _ _ g2
  unfold placeContent
  cases hf : findSlot same domerge mb chk c st.2.2 0 with
  | none =>
    dsimp only
    obtain ⟨b, hb, hs⟩ := hfill st.2.2.length 0 st.1 st.2.1 hi.len1 hi.len2
    rw [hb, bind_ok]
    refine .ok ⟨key _ _ b _ c hs (by simp) (fun i k h => by simpa using h) ?_ ?_, by simp⟩
    · rintro t x i ⟨h1, h2, d, h3, h4⟩
      obtain ⟨hlt, _⟩ := List.getElem?_eq_some_iff.mp h3
      exact ⟨h1, h2, d, by rw [List.getElem?_append_left hlt]; exact h3, h4⟩
    · intro d hd
      rcases List.mem_append.mp hd with hd | hd
      · exact hQ _ (hi.input d hd)
      · simp only [List.mem_singleton] at hd; subst hd; exact hc
  | some r =>
    obtain ⟨k, s, d⟩ := r
    obtain ⟨_, h1, h2, h3⟩ := findSlot_spec hf
    simp only [Nat.sub_zero] at h1
    obtain ⟨hlt, hd⟩ := List.getElem?_eq_some_iff.mp h1
    cases s with
    | true =>
      dsimp only
      obtain ⟨b, hb, hs⟩ := hfill k 0 st.1 st.2.1 hi.len1 hi.len2
      rw [hb, bind_ok]
      have := hsame _ _ (h2 rfl)
      subst this
      exact .ok ⟨key _ _ b _ d hs h1 (fun i k h => by simpa using h) (fun _ _ _ h => h)
        (fun d hd => hQ _ (hi.input d hd)),
        by simp⟩
    | false =>
      dsimp only
      obtain ⟨b, hb, hs⟩ := hfill k d.len st.1 st.2.1 hi.len1 hi.len2
      rw [hb, bind_ok]
      have hdi : d ∈ st.2.2 := by rw [← hd]; exact List.getElem_mem hlt
      obtain ⟨g1, g2⟩ := h3 rfl
      refine (hmerge d hdi g1 g2).bind (fun m hm => ?_)
      · obtain ⟨hm1, hj1, hj2⟩ := hm
        refine .ok ⟨key _ _ b _ m hs (by simp [hlt]) hj2 ?_ ?_, by simp⟩
        · rintro t x v ⟨e1, e2, e, e3, e4⟩
          by_cases hk : t.toNat = k
          · refine ⟨e1, e2, m, by simp [hk, hlt], ?_⟩
            rw [hk, h1] at e3
            injection e3 with e3
            subst e3
            exact hj1 _ _ e4
          · exact ⟨e1, e2, e, by rw [List.getElem?_set_ne (Ne.symm hk)]; exact e3, e4⟩
        · intro e he
          rcases List.mem_or_eq_of_mem_set he with he | rfl
          · exact hQ _ (hi.input e he)
          · exact hm1

/-- The alternatives of `simplify_uniontype`, if the common type makes merging possible. -/
theorem merge_input {no : Without} {domerge mb : Bool} {V : Nat → Val}
    (hdm : domerge = true → no.indexed ∨ no.option) {c d : Content} (hdi : Input no d)
    (hc : Input no c) (g1 : domerge = true) (g2 : mergeable mb d c = true) :
    (mergemany d [c]).Tot no.union (fun m => Input no m ∧ Joins (Seen Val.canon V) d c m) := by
  obtain ⟨t, ht1, ht2⟩ := mergeable_type (hdm g1) hdi.nodes hc.nodes g2
  refine (mergemany_ok (nu := no) (t := t) (self := d) (others := [c]) ?_).mono id (fun m hm => ?_)
  · intro e he
    simp only [List.mem_cons, List.not_mem_nil, or_false] at he
    rcases he with rfl | rfl
    · exact ⟨hdi, ht1⟩
    · exact ⟨hc, ht2⟩
  · refine ⟨hm.input, joins_of_view ?_⟩
    simp only [← cv_eq_view]
    rw [hm.cv]; simp

theorem SInv.mono {S : Nat → Val → Prop} {Q : Content → Prop} {n : Nat} {D E : Nat → Prop}
    {st : SimplifyState} (h : SInv S Q n D st) (hi : ∀ i, i < n → E i → D i) : SInv S Q n E st :=
  ⟨h.len1, h.len2, h.input, fun i hn hE => h.points i hn (hi i hn hE)⟩

theorem selOne_eq {tags index : List Int} {w i : Nat} {x : Int} (h : selOne tags index w i = some x) :
    tags[i]? = some (w : Int) ∧ index[i]? = some x := by
  unfold selOne at h
  split at h
  · exact ⟨by assumption, h⟩
  · cases h

theorem simplifyInner_ok {same : Content → Content → Bool}
    (hsame : ∀ a b, same a b = true → a = b) {no : Without} {domerge mb : Bool}
    (hdm : domerge = true → no.indexed ∨ no.option) {tags index itags iindex : List Int} {w : Nat}
    {V : Nat → Val} {all : List Content}
    (hl : tags.length ≤ index.length) (hil : itags.length ≤ iindex.length)
    (hx : ∀ i x, i < tags.length → selOne tags index w i = some x → 0 ≤ x ∧ x < itags.length)
    (hv : ∀ i x, i < tags.length → selOne tags index w i = some x → ∀ (j : Nat) c k,
      all[j]? = some c → selOne itags iindex j x.toNat = some k → 0 ≤ k ∧ (view Val.canon c)[k.toNat]? = some (V i))
    (ds : List Content) (j : Nat) (hds : ds = all.drop j) (hin : ∀ d ∈ ds, Input no d)
    {D : Nat → Prop} {st : SimplifyState} (hi : SInv (Seen Val.canon V) (Input no) tags.length D st) :
    (simplifyInner same domerge mb tags index itags iindex w ds j st).Tot no.union (fun st' =>
      SInv (Seen Val.canon V) (Input no) tags.length (fun i => D i ∨ ∃ j', j ≤ j' ∧ j' < all.length ∧
        (selTwo tags index itags iindex w j' i).isSome = true) st' ∧
        st'.2.2.length ≤ st.2.2.length + ds.length) := by
  induction ds generalizing j D st with
  | nil =>
    refine .ok ⟨hi.mono (fun i _ h => ?_), by simp⟩
    rcases h with h | ⟨j', h1, h2, _⟩
    · exact h
    · have := congrArg List.length hds
      simp at this; omega
  | cons d ds ih =>
    have hlen : j < all.length := by
      have := congrArg List.length hds
      simp at this; omega
    rw [List.drop_eq_getElem_cons hlen, List.cons.injEq] at hds
    simp only [simplifyInner]
    refine (placeContent_ok hsame (h := no.union) (S := Seen Val.canon _) (Q := Input no) (Q' := Input no) (sel := selTwo tags index itags iindex w j)
      (fun w' base T X h1 h2 => simplify_ok h1 h2 hl hil hx) ?_ (fun _ h => h)
      (hin d List.mem_cons_self) (fun e he g1 g2 => merge_input hdm (hi.input e he)
        (hin d List.mem_cons_self) g1 g2) hi).bind
      (fun st' hst => ?_)
    · intro i k hi' hs
      unfold selTwo at hs
      obtain ⟨x, h1, h2⟩ := Option.bind_eq_some_iff.mp hs
      rw [at_seen]
      exact hv i x hi' h1 j d k (by rw [List.getElem?_eq_getElem hlen, hds.1]) h2
    · refine (ih (j + 1) hds.2 (fun d hd => hin d (List.mem_cons_of_mem _ hd)) hst.1).mono id
        (fun st'' h => ⟨h.1.mono (fun i _ hD => ?_), by have := h.2; have := hst.2; simp only [List.length_cons]; omega⟩)
      rcases hD with hD | ⟨j', h1, h2, h3⟩
      · exact .inl (.inl hD)
      · by_cases hj : j' = j
        · subst hj; exact .inl (.inr h3)
        · exact .inr ⟨j', by omega, h2, h3⟩

theorem simplifyOuter_ok {same : Content → Content → Bool}
    (hsame : ∀ a b, same a b = true → a = b) {no : Without} {domerge mb : Bool}
    (hdm : domerge = true → no.indexed ∨ no.option) {p : Params} {tags index : List Int}
    {all : List Content} (hg : (union p tags index all).Good)
    (cs : List Content) (w : Nat) (hcs : cs = all.drop w)
    (hin : ∀ c ∈ cs, ∀ d ∈ c.alts, Input no d) {D : Nat → Prop} {st : SimplifyState}
    (hi : SInv (Seen Val.canon (fun i => (view Val.canon (union p tags index all))[i]?.getD .null)) (Input no) tags.length D st) :
    (simplifyOuter same domerge mb tags index cs w st).Tot no.union (fun st' =>
      SInv (Seen Val.canon (fun i => (view Val.canon (union p tags index all))[i]?.getD .null)) (Input no) tags.length
        (fun i => D i ∨ ∃ w', w ≤ w' ∧ w' < all.length ∧ tags[i]? = some (w' : Int)) st' ∧
        st'.2.2.length ≤ st.2.2.length + (cs.flatMap alts).length) := by
  obtain ⟨hl, hgc, hp⟩ := good_union.mp hg
  -- the value of a position
  have hval : ∀ i (x : Int) (w : Nat) c, i < tags.length → selOne tags index w i = some x →
      all[w]? = some c → 0 ≤ x ∧ x < c.len ∧
        (view Val.canon c)[x.toNat]? = some ((view Val.canon (union p tags index all))[i]?.getD .null) := by
    intro i x w c hi hs hc
    obtain ⟨h1, h2⟩ := selOne_eq hs
    rw [List.getElem?_eq_getElem hi] at h1
    rw [List.getElem?_eq_getElem (by omega)] at h2
    injection h1 with h1
    injection h2 with h2
    obtain ⟨g1, g2, g3, g4⟩ := hp i hi
    obtain ⟨hw, hcw⟩ := List.getElem?_eq_some_iff.mp hc
    have ew : tags[i].toNat = w := by omega
    have ec : all[tags[i].toNat] = c := by rw [← hcw]; congr
    rw [ec, h2] at g4
    refine ⟨by omega, g4, ?_⟩
    rw [view_union hg, List.getElem?_zipWith, List.getElem?_eq_getElem hi,
      List.getElem?_eq_getElem (show i < index.length by omega)]
    simp only [uk, ew, List.getElem?_map, hc, h2, Option.map_some, Option.getD_some]
    rw [view_get?, if_pos (by omega)]; simp
  induction cs generalizing w D st with
  | nil =>
    refine .ok ⟨hi.mono (fun i _ h => ?_), by simp⟩
    rcases h with h | ⟨j', h1, h2, _⟩
    · exact h
    · have := congrArg List.length hcs
      simp at this; omega
  | cons c cs ih =>
    have hlen : w < all.length := by
      have := congrArg List.length hcs
      simp at this; omega
    rw [List.drop_eq_getElem_cons hlen, List.cons.injEq] at hcs
    have hcw : all[w]? = some c := by rw [List.getElem?_eq_getElem hlen, hcs.1]
    have hcg : c.Good := hgc c (by rw [hcs.1]; exact List.getElem_mem hlen)
    simp only [simplifyOuter]
    -- after alternative `w`
    have rest : ∀ st', SInv (Seen Val.canon (fun i => (view Val.canon (union p tags index all))[i]?.getD .null)) (Input no) tags.length
        (fun i => D i ∨ tags[i]? = some (w : Int)) st' ∧
          st'.2.2.length ≤ st.2.2.length + c.alts.length →
        (simplifyOuter same domerge mb tags index cs (w + 1) st').Tot no.union (fun st' =>
          SInv (Seen Val.canon (fun i => (view Val.canon (union p tags index all))[i]?.getD .null)) (Input no) tags.length
            (fun i => D i ∨ ∃ w', w ≤ w' ∧ w' < all.length ∧ tags[i]? = some (w' : Int)) st' ∧
            st'.2.2.length ≤ st.2.2.length + ((c :: cs).flatMap alts).length) := by
      intro st' hst
      refine (ih (w + 1) hcs.2 (fun d hd => hin d (List.mem_cons_of_mem _ hd)) hst.1).mono id
        (fun st'' h => ⟨h.1.mono (fun i _ hD => ?_), ?_⟩)
      · rcases hD with hD | ⟨w', h1, h2, h3⟩
        · exact .inl (.inl hD)
        · by_cases hj : w' = w
          · subst hj; exact .inl (.inr h3)
          · exact .inr ⟨w', by omega, h2, h3⟩
      · have := h.2
        have := hst.2
        simp only [List.flatMap_cons, List.length_append]; omega
    -- an alternative that is not a union
    have one : (∀ d ∈ [c], Input no d) → c.alts = [c] →
        (placeContent same domerge mb true
          (fun towhich base totags toindex =>
            UnionArray_simplify_one totags toindex tags index towhich w tags.length base) c st
          >>= fun st => simplifyOuter same domerge mb tags index cs (w + 1) st).Tot no.union
        (fun st' =>
          SInv (Seen Val.canon (fun i => (view Val.canon (union p tags index all))[i]?.getD .null)) (Input no) tags.length
            (fun i => D i ∨ ∃ w', w ≤ w' ∧ w' < all.length ∧ tags[i]? = some (w' : Int)) st' ∧
            st'.2.2.length ≤ st.2.2.length + ((c :: cs).flatMap alts).length) := by
      intro hci halt
      refine (placeContent_ok hsame (h := no.union) (S := Seen Val.canon _) (Q := Input no) (Q' := Input no) (sel := selOne tags index w)
        (fun w' base T X h1 h2 => simplify_one_ok h1 h2 hl) ?_ (fun _ h => h) (hci c (by simp))
        (fun e he g1 g2 => merge_input hdm (hi.input e he) (hci c (by simp)) g1 g2) hi).bind
        (fun st' hst => rest st' ⟨hst.1.mono (fun i hi' hD => ?_), by rw [halt]; exact hst.2⟩)
      · intro i k hi' hs
        have := hval i k w c hi' hs hcw
        exact ⟨this.1, at_seen.mpr this.2.2⟩
      · rcases hD with hD | hD
        · exact .inl hD
        · right
          unfold selOne
          rw [if_pos hD, List.getElem?_eq_getElem (by omega)]; rfl
    have hci := hin c List.mem_cons_self
    cases c with
    | union q itags iindex ds =>
      dsimp only
      obtain ⟨il, ig, ip⟩ := good_union.mp hcg
      refine (simplifyInner_ok hsame hdm (all := ds) hl il ?_ ?_ ds 0 (by simp) hci hi).bind
        (fun st' hst => rest st' ⟨hst.1.mono (fun i hi' hD => ?_), hst.2⟩)
      · intro i x hi' hs
        have := hval i x w _ hi' hs hcw
        exact ⟨this.1, this.2.1⟩
      · intro i x hi' hs j c k hjc hsk
        obtain ⟨h1, h2, h3⟩ := hval i x w _ hi' hs hcw
        obtain ⟨g1, g2⟩ := selOne_eq hsk
        simp only [len] at h2
        have hxl : x.toNat < itags.length := by omega
        rw [List.getElem?_eq_getElem hxl] at g1
        rw [List.getElem?_eq_getElem (by omega)] at g2
        injection g1 with g1
        injection g2 with g2
        obtain ⟨e1, e2, e3, e4⟩ := ip x.toNat hxl
        have ej : itags[x.toNat].toNat = j := by omega
        obtain ⟨hjl, hcj⟩ := List.getElem?_eq_some_iff.mp hjc
        have ec : ds[itags[x.toNat].toNat] = c := by rw [← hcj]; congr
        rw [ec, g2] at e4
        refine ⟨by omega, ?_⟩
        rw [view_union hcg, List.getElem?_zipWith, List.getElem?_eq_getElem hxl,
          List.getElem?_eq_getElem (show x.toNat < iindex.length by omega)] at h3
        simp only [uk, ej, List.getElem?_map, hjc, g2, Option.map_some, Option.getD_some] at h3
        rw [view_get?, if_pos (by omega)] at h3 ⊢
        simpa using h3
      · rcases hD with hD | hD
        · exact .inl hD
        · right
          have hs : selOne tags index w i = some index[i] := by
            unfold selOne
            rw [if_pos hD, List.getElem?_eq_getElem (by omega)]
          obtain ⟨h1, h2, h3⟩ := hval i _ w _ hi' hs hcw
          simp only [len] at h2
          have hxl : index[i].toNat < itags.length := by omega
          obtain ⟨e1, e2, e3, e4⟩ := ip index[i].toNat hxl
          refine ⟨itags[index[i].toNat].toNat, by omega, e2, ?_⟩
          unfold selTwo
          rw [hs, Option.bind_some]
          unfold selOne
          rw [if_pos (by rw [List.getElem?_eq_getElem hxl, Option.some.injEq]; omega),
            List.getElem?_eq_getElem (by omega)]
          rfl
    | _ => exact one hci rfl

/-- The end of `simplify_uniontype`, after the loop over the alternatives. -/
theorem simplifyUnion_end {same : Content → Content → Bool} {S : Nat → Val → Prop} {h : Prop}
    {domerge mb : Bool} {p : Params} {tags index : List Int} {cs : List Content}
    (hg : (union p tags index cs).Good)
    (hloop : (simplifyOuter same domerge mb tags index cs 0
        (alloc tags.length, alloc tags.length, [])).Tot h (fun st =>
      SInv S Good tags.length (fun i => ∃ w, w < cs.length ∧ tags[i]? = some (w : Int)) st ∧
        (h → st.2.2.length ≤ 127))) :
    (simplifyUnion same domerge mb p tags index cs).Tot h
      (fun c => c.Good ∧ c.len = tags.length ∧ ∀ i, i < tags.length → S i (c.valD i)) := by
  obtain ⟨hl, hgc, hp⟩ := good_union.mp hg
  unfold simplifyUnion
  rw [if_neg (by omega)]
  refine hloop.bind (fun st hst => ?_)
  obtain ⟨hs, hlen⟩ := hst
  have hpt : ∀ i (h1 : i < st.1.length) (h2 : i < st.2.1.length),
      Points S st.2.2 st.1[i] st.2.1[i] i := by
    intro i h1 h2
    have hi : i < tags.length := by have := hs.len1; omega
    obtain ⟨g1, g2, _⟩ := hp i hi
    obtain ⟨t, x, e1, e2, e3⟩ := hs.points i hi ⟨tags[i].toNat, g2, by
      rw [List.getElem?_eq_getElem hi, Option.some.injEq]; omega⟩
    rw [List.getElem?_eq_getElem h1] at e1
    rw [List.getElem?_eq_getElem h2] at e2
    injection e1 with e1
    injection e2 with e2
    rw [e1, e2]; exact e3
  have l1 := hs.len1
  have l2 := hs.len2
  by_cases hmax : st.2.2.length > kMaxInt8
  · rw [if_pos hmax]
    refine .err (fun h => ?_)
    have := hlen h
    simp only [kMaxInt8] at hmax
    omega
  rw [if_neg hmax]
  have many : (union p st.1 st.2.1 st.2.2).Good ∧ (union p st.1 st.2.1 st.2.2).len = tags.length ∧
      ∀ i, i < tags.length → S i ((union p st.1 st.2.1 st.2.2).valD i) := by
    have hgood : (union p st.1 st.2.1 st.2.2).Good := by
      refine good_union.mpr ⟨by omega, fun c hc => hs.input c hc, fun i hi => ?_⟩
      obtain ⟨g1, g2, c, g3, g4⟩ := hpt i hi (by omega)
      obtain ⟨e1, e2⟩ := List.getElem?_eq_some_iff.mp g3
      refine ⟨g1, e1, g2, ?_⟩
      rw [e2]
      have := g4.1
      omega
    refine ⟨hgood, l1, fun i hi => ?_⟩
    obtain ⟨g1, g2, c, g3, g4⟩ := hpt i (by omega) (by omega)
    obtain ⟨e1, e2⟩ := List.getElem?_eq_some_iff.mp g3
    rw [valD_union hgood (by omega) (by omega) e1, e2]
    exact g4.2
  split
  · rename_i c hc
    rw [hc] at hpt
    have hcin : c.Good := hs.input c (by rw [hc]; simp)
    have hx : ∀ i (h1 : i < st.1.length) (h2 : i < st.2.1.length),
        0 ≤ st.2.1[i] ∧ At S c i st.2.1[i].toNat := by
      intro i h1 h2
      obtain ⟨g1, g2, d, g3, g4⟩ := hpt i h1 h2
      have : d = c := by
        have := List.mem_of_getElem? g3
        simpa using this
      subst this
      exact ⟨g2, g4⟩
    have hr : InRange st.2.1 c.len := by
      intro j hj
      obtain ⟨i, hi, rfl⟩ := List.getElem_of_mem hj
      obtain ⟨g1, g2⟩ := hx i (by omega) hi
      have := g2.1
      omega
    obtain ⟨c', h1, h2, _, h4⟩ := carry_good hcin true hr
    rw [h1]
    refine .ok ⟨h2, by rw [h4.1]; exact l2, fun i hi => ?_⟩
    rw [h4.valD (by omega)]
    exact (hx i (by omega) (by omega)).2.2
  · exact .ok many

/-- `simplify_uniontype` of a union whose alternatives can be merged. -/
theorem simplifyUnion_ok {same : Content → Content → Bool}
    (hsame : ∀ a b, same a b = true → a = b) {no : Without} {domerge mb : Bool}
    (hdm : domerge = true → no.indexed ∨ no.option) {p : Params} {tags index : List Int}
    {cs : List Content} (hg : (union p tags index cs).Good)
    (hin : ∀ c ∈ cs, ∀ d ∈ c.alts, Input no d) :
    (simplifyUnion same domerge mb p tags index cs).Tot
      (no.union ∧ (cs.flatMap alts).length ≤ 127)
      (fun c => c.Good ∧ c.cv = (union p tags index cs).cv) := by
  refine (simplifyUnion_end (S := Seen Val.canon
    (fun i => (view Val.canon (union p tags index cs))[i]?.getD .null)) hg ?_).mono id (fun c hc => ?_)
  swap
  · refine ⟨hc.1, ?_⟩
    rw [cv_eq_view, cv_eq_view]
    apply List.ext_getElem?
    intro i
    rw [view_get?]
    by_cases hi : i < tags.length
    · have := hc.2.2 i hi
      rw [if_pos (by rw [hc.2.1]; exact hi)]
      unfold Seen at this
      have hv : (view Val.canon (union p tags index cs))[i]? = some _ :=
        List.getElem?_eq_getElem (by rw [view_length]; exact hi)
      simp only [this, hv, Option.getD_some]
    · rw [if_neg (by rw [hc.2.1]; exact hi), List.getElem?_eq_none (by rw [view_length]; simp only [len]; omega)]
  refine (simplifyOuter_ok hsame (mb := mb) hdm hg cs 0 (by simp) hin (D := fun _ => False)
    (st := (alloc tags.length, alloc tags.length, []))
    ⟨alloc_length _, alloc_length _, by simp, fun _ _ h => h.elim⟩).mono (fun h => h.1)
    (fun st hst => ⟨⟨hst.1.len1, hst.1.len2, fun c hc => (hst.1.input c hc).good, ?_⟩, ?_⟩)
  · rintro i hi ⟨w, h1, h2⟩
    exact hst.1.points i hi (.inr ⟨w, by omega, h1, h2⟩)
  · intro h
    have := hst.2
    simp only [List.length_nil, Nat.zero_add] at this
    omega

end Content
end Awk
