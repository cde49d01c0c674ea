import Verif.Model.Like
import Verif.Spec.Like
import Verif.Lemmas.Apply
import Verif.Lemmas.AllNodes
import Verif.Lemmas.MergeShape
import Verif.Model.Types
/-
`ak.full_like` and `ak.without_parameters`.
-/

namespace Awk
open R

theorem truncated_tdiv (q : Rat) : truncated q = q.num.tdiv q.den := by
  unfold truncated
  have hd : (0 : Int) < q.den := by have := q.den_pos; omega
  split
  · rename_i h
    have hn : 0 ≤ q.num := Rat.num_nonneg.mpr h
    rw [Rat.floor_def, Int.tdiv_eq_ediv_of_nonneg hn]
  · rename_i h
    have hn : q.num < 0 := by
      by_contra hc
      exact h (Rat.num_nonneg.mp (by omega))
    rw [Rat.ceil_eq_neg_floor_neg, Rat.floor_def, show (-q).num = -q.num from rfl, show (-q).den = q.den from rfl,
      ← Int.tdiv_eq_ediv_of_nonneg (by omega : 0 ≤ -q.num), Int.neg_tdiv, Int.neg_neg]

theorem truncated_int (i : Int) : truncated (i : Rat) = i := by
  unfold truncated
  split <;> simp

theorem wrapInt_in {signed : Bool} {bits : Nat} (hb : 1 ≤ bits) {i : Int}
    (h : (if signed then -2 ^ (bits - 1) else 0 : Int) ≤ i ∧
      i < (if signed then -2 ^ (bits - 1) else 0 : Int) + 2 ^ bits) : wrapInt signed bits i = i := by
  obtain ⟨b, rfl⟩ : ∃ b, bits = b + 1 := ⟨bits - 1, by omega⟩
  have hp : (0 : Int) < 2 ^ b := Int.pow_pos (by omega)
  have h2 : (2 : Int) ^ (b + 1) = 2 ^ b + 2 ^ b := by rw [Int.pow_succ]; omega
  unfold wrapInt
  simp only [Nat.add_sub_cancel, h2] at h ⊢
  cases signed
  · simp only [Bool.false_eq_true, if_false, false_and] at h ⊢
    exact Int.emod_eq_of_lt (by omega) (by omega)
  · simp only [if_true, true_and] at h ⊢
    by_cases h0 : 0 ≤ i
    · rw [Int.emod_eq_of_lt h0 (by omega), if_neg (by omega)]
    · have : i % (2 ^ b + 2 ^ b) = i + (2 ^ b + 2 ^ b) := by
        rw [← Int.add_emod_right, Int.emod_eq_of_lt (by omega) (by omega)]
      rw [this, if_pos (by omega)]
      omega

theorem castInt_has {a : Atom} {re im : Rat} (ha : a.asNumber = some (re, im)) {signed : Bool} {bits : Nat}
    (hb : 1 ≤ bits) (h : (if signed then -2 ^ (bits - 1) else 0 : Int) ≤ truncated re ∧
      truncated re < (if signed then -2 ^ (bits - 1) else 0 : Int) + 2 ^ bits) :
    castInt signed bits a = ok (truncated re) := by
  cases a with
  | bool b =>
    cases b <;> simp [Atom.asNumber] at ha <;> obtain ⟨rfl, rfl⟩ := ha
    · exact congrArg ok (truncated_int 0).symm
    · exact congrArg ok (truncated_int 1).symm
  | int i =>
    simp only [Atom.asNumber, Option.some.injEq, Prod.mk.injEq] at ha
    obtain ⟨rfl, rfl⟩ := ha
    rw [truncated_int] at h ⊢
    simp only [castInt, wrapInt_in hb h]
  | real q =>
    simp only [Atom.asNumber, Option.some.injEq, Prod.mk.injEq] at ha
    obtain ⟨rfl, rfl⟩ := ha
    simp only [castInt, truncInt]
    rw [truncated_tdiv] at h ⊢
    rw [if_pos h]
  | complex q r =>
    simp only [Atom.asNumber, Option.some.injEq, Prod.mk.injEq] at ha
    obtain ⟨rfl, rfl⟩ := ha
    simp only [castInt, truncInt]
    rw [truncated_tdiv] at h ⊢
    rw [if_pos h]
  | datetime i => simp [Atom.asNumber] at ha
  | timedelta i => simp [Atom.asNumber] at ha

/-- `number` of the argument. -/
def FillValue.Number (re im : Rat) : FillValue → Prop
  | .zeros => re = 0 ∧ im = 0
  | .value a _ => a.asNumber = some (re, im)

theorem npConst_filled {n : Nat} {dt : DType} {x : Atom} (hx : x.isOf dt) :
    npConst n dt = x.filled (n : Rat) 0 := by
  have ht : truncated (n : Rat) = n := truncated_int n
  cases dt <;> cases x <;> simp [Atom.isOf, DType.signedBits] at hx <;> simp [npConst, Atom.filled, ht]

theorem fillItem_ok {f : FillValue} {re im : Rat} (hf : f.Number re im) {dt : DType} (hd : dt.has re im) :
    ∃ y, fillItem f dt = ok y ∧ ∀ x : Atom, x.isOf dt → y = x.filled re im := by
  cases f with
  | zeros =>
    obtain ⟨rfl, rfl⟩ := hf
    exact ⟨_, rfl, fun x hx => npConst_filled (n := 0) hx⟩
  | value a text =>
    have hf : a.asNumber = some (re, im) := hf
    unfold fillItem
    simp only
    by_cases h0 : a.asNumber = some (0, 0)
    · rw [if_pos h0]
      rw [hf] at h0
      simp only [Option.some.injEq, Prod.mk.injEq] at h0
      obtain ⟨rfl, rfl⟩ := h0
      exact ⟨_, rfl, fun x hx => npConst_filled (n := 0) hx⟩
    rw [if_neg h0]
    by_cases h1 : a.asNumber = some (1, 0)
    · rw [if_pos h1]
      rw [hf] at h1
      simp only [Option.some.injEq, Prod.mk.injEq] at h1
      obtain ⟨rfl, rfl⟩ := h1
      exact ⟨_, rfl, fun x hx => npConst_filled (n := 1) hx⟩
    rw [if_neg h1]
    have hint : ∀ signed bits, dt.signedBits = some (signed, bits) → 1 ≤ bits →
        castInt signed bits a = ok (truncated re) := by
      intro s b hs hb
      have : (if s then -2 ^ (b - 1) else 0 : Int) ≤ truncated re ∧
          truncated re < (if s then -2 ^ (b - 1) else 0 : Int) + 2 ^ b := by
        cases dt <;> first | exact hd s b hs | simp [DType.signedBits] at hs
      exact castInt_has hf hb this
    rw [hf] at h0 h1
    cases dt
    case bool =>
      refine ⟨_, rfl, fun x hx => ?_⟩
      cases x <;> simp [Atom.isOf, DType.signedBits] at hx
      simp only [hf, Atom.filled, Atom.bool.injEq, decide_eq_decide]
      simp only [ne_eq, Option.some.injEq, Prod.mk.injEq]
      exact not_and_or
    case float32 | float64 | complex64 | complex128 =>
      simp only [npFull, hf]
      refine ⟨_, rfl, fun x hx => ?_⟩
      cases x <;> simp [Atom.isOf, DType.signedBits] at hx <;> rfl
    case datetime64 | timedelta64 =>
      obtain ⟨hr, hi⟩ := hd
      rcases hr with rfl | rfl <;> simp [hi] at h0 h1
    all_goals
      simp only [npFull, DType.signedBits]
      rw [hint _ _ rfl (by omega), bind_ok]
      refine ⟨_, rfl, fun x hx => ?_⟩
      cases x <;> simp [Atom.isOf, DType.signedBits] at hx <;> rfl

namespace Val

theorem likeList_eq (re im : Rat) (text : List Val) (vs : List Val) :
    likeList re im text vs = vs.map (like re im text) := by
  induction vs with
  | nil => rfl
  | cons v vs ih => simp [likeList, ih]

theorem likeFields_zip (re im : Rat) (text : List Val) (ks : List String) (vs : List Val) :
    likeFields re im text (ks.zip vs) = ks.zip (vs.map (like re im text)) := by
  induction ks generalizing vs with
  | nil => rfl
  | cons k ks ih => cases vs <;> simp [likeFields, ih]

theorem unnamedList_eq (vs : List Val) : unnamedList vs = vs.map unnamed := by
  induction vs with
  | nil => rfl
  | cons v vs ih => simp [unnamedList, ih]

theorem unnamedFields_zip (ks : List String) (vs : List Val) :
    unnamedFields (ks.zip vs) = ks.zip (vs.map unnamed) := by
  induction ks generalizing vs with
  | nil => rfl
  | cons k ks ih => cases vs <;> simp [unnamedFields, ih]

end Val

namespace Content

theorem like_mkRecord (re im : Rat) (text : List Val) (keys : Option (List String)) (vs : List Val) :
    (mkRecord keys vs).like re im text = mkRecord keys (vs.map (Val.like re im text)) := by
  cases keys <;> simp [mkRecord, Val.like, Val.likeList_eq, Val.likeFields_zip]

theorem like_wrapList (re im : Rat) (text : List Val) {p : Params} (h1 : p.arr ≠ .string)
    (h2 : p.arr ≠ .bytestring) (vs : List Val) :
    (wrapList p vs).like re im text = wrapList p (vs.map (Val.like re im text)) := by
  unfold wrapList
  revert h1 h2
  cases p.arr <;> simp [Val.like, Val.likeList_eq]

theorem sameStrings_maps {list item : ArrKind} {c : Content} {bytes : List Atom} {F : Val → Val}
    (hF : ∀ i, i < c.len → F (c.valD i) = wrapList { arr := list } (bytes.map Val.atom)) :
    MapsG True c (sameStrings list item c.len bytes) F := by
  have hg : (sameStrings list item c.len bytes).Good := by
    refine good_listArray.mpr ⟨by simp, good_numpy _ _ _, fun i hi => ?_⟩
    simp only [List.getElem_replicate, len]
    exact Or.inr ⟨by omega, by omega, by omega⟩
  refine ⟨⟨hg, by simp [sameStrings, len], fun i hi => ?_⟩, fun _ => by simp [sameStrings, len]⟩
  rw [hF i hi]
  unfold sameStrings at hg ⊢
  rw [valD_listArray hg (by simpa using hi) (by simpa using hi)]
  congr 1
  simp only [List.getElem_replicate]
  apply List.ext_getElem
  · simp
  · intro k h1 h2
    have hk : k < bytes.length := by simpa using h2
    simp [seg, valD_numpy hk]

/-- `full_like` stops at numbers and strings. -/
theorem fullLike_applies {f : FillValue} {re im : Rat} (hf : f.Number re im) {c : Content} (hg : c.Good)
    (h : Fillable re im c) (d : Nat) :
    Applies (fullLikeGet f) (fun _ => Val.like re im (f.bytes.map Val.atom)) d () c := by
  induction h generalizing d with
  | @text c h =>
    obtain ⟨hl, hp⟩ := h
    rcases hp with hp | hp
    · refine .stop (e := sameStrings .string .char c.len f.bytes) (by simp [fullLikeGet, hp]) ?_
      refine sameStrings_maps (fun i hi => ?_)
      obtain ⟨vs, hv⟩ := listNode_val hg hl hi
      rw [hv]; simp only [wrapList, hp, Val.like]
    · refine .stop (e := sameStrings .bytestring .byte c.len f.bytes) (by simp [fullLikeGet, hp]) ?_
      refine sameStrings_maps (fun i hi => ?_)
      obtain ⟨vs, hv⟩ := listNode_val hg hl hi
      rw [hv]; simp only [wrapList, hp, Val.like]
  | @numpy p dt data h1 h2 h3 h4 =>
    obtain ⟨y, hy, hy'⟩ := fillItem_ok hf h4
    refine .stop (e := Content.numpy p dt (List.replicate data.length y)) ?_ ?_
    · simp [fullLikeGet, Content.params, h1, h2, hy]
    · refine ⟨⟨good_numpy _ _ _, by simp [len], fun i hi => ?_⟩, fun _ => by simp [len]⟩
      simp only [len] at hi
      rw [valD_numpy (by simpa using hi), valD_numpy hi]
      simp only [List.getElem_replicate, Val.like]
      rw [hy' _ (h3 _ (List.getElem_mem hi))]
  | @node c h1 h2 h3 _ ih =>
    refine .pass (u' := ()) ?_ ?_ (fun e he => ih e he (hg.child he) _)
    · cases c <;> simp only [Content.params] at h1 h2 <;>
        first | exact absurd rfl (h3 _ _ _) | simp [fullLikeGet, Content.params, h1, h2]
    · cases c <;> simp only [Content.params] at h1 h2 <;> simp only [Passes]
      case numpy p dt data => exact absurd rfl (h3 _ _ _)
      case record => exact ⟨like_mkRecord re im _, trivial⟩
      case regular | listArray | listOffset => exact like_wrapList re im _ h1 h2
      all_goals simp [Val.like]

theorem unnamed_wrapList (p : Params) (vs : List Val) :
    (wrapList p vs).unnamed = wrapList {} (vs.map Val.unnamed) := by
  unfold wrapList
  cases p.arr <;> simp [Val.unnamed, Val.unnamedList_eq]

theorem unnamed_mkRecord (keys : Option (List String)) (vs : List Val) :
    (mkRecord keys vs).unnamed = mkRecord keys (vs.map Val.unnamed) := by
  cases keys <;> simp [mkRecord, Val.unnamed, Val.unnamedList_eq, Val.unnamedFields_zip]

theorem withoutParametersAll_eq (cs : List Content) :
    withoutParametersAll cs = cs.map withoutParameters := by
  induction cs with
  | nil => rfl
  | cons c cs ih => simp [withoutParametersAll, ih]

/-- The elements without the names of strings. -/
theorem withoutParameters_maps {c : Content} (hg : c.Good) :
    MapsG True c c.withoutParameters Val.unnamed := by
  induction c using induct with
  | empty p =>
    exact ⟨⟨good_empty _, Nat.le_refl _, fun i hi => by simp [len] at hi⟩, fun _ => rfl⟩
  | numpy p dt data =>
    refine ⟨⟨good_numpy _ _ _, Nat.le_refl _, fun i hi => ?_⟩, fun _ => rfl⟩
    simp only [len] at hi
    simp only [withoutParameters]
    rw [valD_numpy hi, valD_numpy hi, Val.unnamed]
  | regular p c size zeros ih =>
    exact MapsG.regular' (good_regular.mp hg) (unnamed_wrapList p) (ih (hg.child (by simp [children])))
  | listArray p starts stops c ih =>
    exact MapsG.listArray' hg (unnamed_wrapList p) (ih (hg.child (by simp [children])))
  | listOffset p offsets c ih =>
    exact MapsG.listOffset' hg (unnamed_wrapList p) (ih (hg.child (by simp [children])))
  | indexed p index c ih =>
    exact MapsG.indexed hg (ih (hg.child (by simp [children])))
  | indexedOption p index c ih =>
    exact MapsG.indexedOption hg rfl (ih (hg.child (by simp [children])))
  | byteMasked p mask vw c ih =>
    exact MapsG.byteMasked hg rfl (ih (hg.child (by simp [children])))
  | bitMasked p mask vw length lsb c ih =>
    exact MapsG.bitMasked hg rfl (ih (hg.child (by simp [children])))
  | unmasked p c ih =>
    exact MapsG.unmasked (ih (hg.child (by simp [children])))
  | record p keys cs length ih =>
    simp only [withoutParameters, withoutParametersAll_eq]
    refine MapsG.record' hg unnamed_mkRecord ?_
    rw [List.forall₂_map_right_iff, List.forall₂_same]
    exact fun c hc => (ih c hc (hg.child hc)).toMaps
  | union p tags index cs ih =>
    simp only [withoutParameters, withoutParametersAll_eq]
    refine MapsG.union hg ?_
    rw [List.forall₂_map_right_iff, List.forall₂_same]
    exact fun c hc => (ih c hc (hg.child hc)).toMaps

theorem withoutParameters_params (c : Content) : AllNodes (fun d => d.params = {}) c.withoutParameters := by
  induction c using induct with
  | empty p => exact .mk rfl (by simp [withoutParameters, children])
  | numpy p dt data => exact .mk rfl (by simp [withoutParameters, children])
  | regular p c size zeros ih => exact .mk rfl (by simpa [withoutParameters, children] using ih)
  | listArray p starts stops c ih => exact .mk rfl (by simpa [withoutParameters, children] using ih)
  | listOffset p offsets c ih => exact .mk rfl (by simpa [withoutParameters, children] using ih)
  | indexed p index c ih => exact .mk rfl (by simpa [withoutParameters, children] using ih)
  | indexedOption p index c ih => exact .mk rfl (by simpa [withoutParameters, children] using ih)
  | byteMasked p mask vw c ih => exact .mk rfl (by simpa [withoutParameters, children] using ih)
  | bitMasked p mask vw length lsb c ih => exact .mk rfl (by simpa [withoutParameters, children] using ih)
  | unmasked p c ih => exact .mk rfl (by simpa [withoutParameters, children] using ih)
  | record p keys cs length ih =>
    exact .mk rfl (by simpa [withoutParameters, children, withoutParametersAll_eq] using ih)
  | union p tags index cs ih =>
    exact .mk rfl (by simpa [withoutParameters, children, withoutParametersAll_eq] using ih)

theorem withoutParameters_len (c : Content) : c.withoutParameters.len = c.len := by
  induction c using induct with
  | regular p c size zeros ih =>
    simp only [withoutParameters, len, ih]
    split <;> rfl
  | unmasked p c ih => simpa only [withoutParameters, len] using ih
  | _ => simp only [withoutParameters, len]

theorem withoutParameters_twice (c : Content) : c.withoutParameters.withoutParameters = c.withoutParameters := by
  induction c using induct with
  | empty p => rfl
  | numpy p dt data => rfl
  | regular p c size zeros ih =>
    have := withoutParameters_len (regular p c size zeros)
    simp only [withoutParameters] at this ⊢
    rw [ih, this]
  | listArray p _ _ c ih | listOffset p _ c ih | indexed p _ c ih | indexedOption p _ c ih
  | byteMasked p _ _ c ih | bitMasked p _ _ _ _ c ih | unmasked p c ih =>
    simp only [withoutParameters, ih]
  | record p _ cs _ ih | union p _ _ cs ih =>
    simp only [withoutParameters, withoutParametersAll_eq, List.map_map]
    congr 1
    exact List.map_congr_left (fun c hc => ih c hc)

/-! ### Types -/

theorem form_typeAll_congr {ts : List (String × String)} {cs es : List Content}
    (h : List.Forall₂ (fun c e => e.form.type ts = c.form.type ts) cs es) :
    Form.typeAll ts (formAll es) = Form.typeAll ts (formAll cs) := by
  induction h with
  | nil => rfl
  | cons h _ ih => simp only [formAll, Form.typeAll, h, ih]

theorem applyAll_outs {U : Type} {get : Nat → U → Content → R (Content ⊕ U)} {d : Nat} {u : U} :
    ∀ {cs es : List Content}, applyAll get d u cs = ok es → List.Forall₂ (fun c e => apply get d u c = ok e) cs es
  | [], es, h => by simp only [applyAll, ok.injEq] at h; subst h; exact .nil
  | c :: cs, es, h => by
    simp only [applyAll, bind_eq_ok, ok.injEq] at h
    obtain ⟨e, h1, es', h2, rfl⟩ := h
    exact .cons h1 (applyAll_outs h2)

theorem fullLike_type {f : FillValue} {ts : List (String × String)} {c : Content}
    (hp : AllNodes PlainText c) : ∀ {d : Nat} {out : Content}, apply (fullLikeGet f) d () c = ok out →
      out.form.type ts = c.form.type ts := by
  have hstr : ∀ {c : Content}, PlainText c → ∀ {r : Content}, (∃ d, fullLikeGet f d () c = ok (.inl r)) →
      r.form.type ts = c.form.type ts := by
    intro c hc r ⟨d, hr⟩
    unfold fullLikeGet at hr
    split at hr
    · rename_i hb
      simp only [ok.injEq, Sum.inl.injEq] at hr
      subst hr
      obtain ⟨h1, h2, h3, h4⟩ := hc.2 hb
      cases c <;> simp only [isListNode, Bool.false_eq_true] at h1
      case regular => exact absurd rfl (h3 _ _ _ _)
      all_goals
        simp only [Content.params] at h2
        obtain ⟨data, rfl⟩ := h4 _ (by simp [children]; rfl)
        subst h2; rfl
    split at hr
    · rename_i hb
      simp only [ok.injEq, Sum.inl.injEq] at hr
      subst hr
      obtain ⟨h1, h2, h3, h4⟩ := hc.1 hb
      cases c <;> simp only [isListNode, Bool.false_eq_true] at h1
      case regular => exact absurd rfl (h3 _ _ _ _)
      all_goals
        simp only [Content.params] at h2
        obtain ⟨data, rfl⟩ := h4 _ (by simp [children]; rfl)
        subst h2; rfl
    · split at hr
      · simp only [bind_eq_ok, ok.injEq, Sum.inl.injEq] at hr
        obtain ⟨x, _, rfl⟩ := hr
        rfl
      · simp at hr
  induction c using induct with
  | empty p =>
    intro d out h
    simp only [apply, bind_eq_ok] at h
    obtain ⟨r, h1, h2⟩ := h
    cases r with
    | inl r => simp only [custom, ok.injEq] at h2; subst h2; exact hstr hp.here ⟨d, h1⟩
    | inr u => simp only [custom, ok.injEq] at h2; subst h2; rfl
  | numpy p dt data =>
    intro d out h
    simp only [apply, bind_eq_ok] at h
    obtain ⟨r, h1, h2⟩ := h
    cases r with
    | inl r => simp only [custom, ok.injEq] at h2; subst h2; exact hstr hp.here ⟨d, h1⟩
    | inr u => simp only [custom, ok.injEq] at h2; subst h2; rfl
  | regular p c _ _ ih | listArray p _ _ c ih | listOffset p _ c ih | indexed p _ c ih | indexedOption p _ c ih
  | byteMasked p _ _ c ih | bitMasked p _ _ _ _ c ih | unmasked p c ih =>
    intro d out h
    simp only [apply, bind_eq_ok] at h
    obtain ⟨r, h1, h2⟩ := h
    cases r with
    | inl r => simp only [custom, ok.injEq] at h2; subst h2; exact hstr hp.here ⟨d, h1⟩
    | inr u =>
      simp only [custom, bind_eq_ok, ok.injEq] at h2
      obtain ⟨e, h3, rfl⟩ := h2
      have := ih (hp.child (by simp [children])) h3
      simp only [form, Form.type, this]
  | record p _ cs _ ih | union p _ _ cs ih =>
    intro d out h
    simp only [apply, bind_eq_ok] at h
    obtain ⟨r, h1, h2⟩ := h
    cases r with
    | inl r => simp only [custom, ok.injEq] at h2; subst h2; exact hstr hp.here ⟨d, h1⟩
    | inr u =>
      simp only [custom, bind_eq_ok, ok.injEq] at h2
      obtain ⟨es, h3, rfl⟩ := h2
      have h4 := applyAll_outs h3
      have := form_typeAll_congr (ts := ts) (((List.forall₂_and_left (p := fun c => c ∈ cs) cs es).mpr
        ⟨fun _ h => h, h4⟩).imp (fun c e h => ih c h.1 (hp.child (by simpa [children] using h.1)) h.2))
      simp only [form, Form.type, this]

end Content
end Awk
