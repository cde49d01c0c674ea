import Verif.Lemmas.Apply
import Verif.Lemmas.Types
import Verif.Spec.Regular
/-
`from_regular` and `to_regular`: functions that are applied to the lists at one depth.
-/

namespace Awk
open R Awk.Spec
namespace Content

/-- `getfunction` applies `conv` to the lists at depth `a` and passes through everything else. -/
structure AtLevel (get : Nat → Int → Content → R (Content ⊕ Int)) (conv : Content → R Content)
    (a : Nat) : Prop where
  stop : ∀ c, c.isListNode = true → get a a c = (conv c >>= fun e => ok (.inl e))
  list : ∀ d c, d < a → get d a c = ok (.inr (a : Int))
  other : ∀ c, c.isListNode = false → get a a c = ok (.inr (a : Int))

theorem passes_id {c : Content} : Passes id id c := by
  cases c <;> simp [Passes]

/-- The values, if `conv` keeps them. -/
theorem level_maps {get : Nat → Int → Content → R (Content ⊕ Int)} {conv : Content → R Content}
    {a : Nat} (hget : AtLevel get conv a) {φ : Content → Prop}
    (hconv : ∀ c, c.Good → c.isListNode = true → φ c → ∃ e, conv c = ok e ∧ MapsG True c e id)
    {c : Content} (hg : c.Good) {k : Nat} (h1 : 1 ≤ k) (hk : k ≤ a) (hl : LevelAt φ k c) :
    Applies get (fun _ => id) (a + 1 - k) (a : Int) c := by
  induction hl with
  | @here c hn hφ =>
    obtain ⟨e, g1, g2⟩ := hconv c hg hn hφ
    refine .stop (e := e) ?_ g2
    rw [show a + 1 - 1 = a by omega, hget.stop c hn, g1, bind_ok]
  | @inside c k hn hk1 _ ih =>
    refine .pass (hget.list _ c (by omega)) passes_id fun e he => ?_
    have : c.deeper (a + 1 - (k + 1)) = a + 1 - k := by
      simp only [deeper, hn, if_true]; omega
    rw [this]
    exact ih e he (hg.child he) hk1 (by omega)
  | @other c k hn _ ih =>
    have hp : get (a + 1 - k) a c = ok (.inr (a : Int)) := by
      by_cases hka : k = 1
      · subst hka
        rw [show a + 1 - 1 = a by omega]
        exact hget.other c hn
      · exact hget.list _ c (by omega)
    refine .pass hp passes_id fun e he => ?_
    have : c.deeper (a + 1 - k) = a + 1 - k := by simp [deeper, hn]
    rw [this]
    exact ih e he (hg.child he) h1 hk

theorem SameBut.setParams {r : AkType → AkType → Prop} {f : Params → Params}
    (hr : ∀ t t', r t t' → r (t.setParams f) (t'.setParams f)) {k : Nat} {t t' : AkType}
    (h : SameBut r k t t') : SameBut r k (t.setParams f) (t'.setParams f) := by
  cases h with
  | unknown => exact .unknown
  | prim => exact .prim
  | here h => exact .here (hr _ _ h)
  | list h1 h => exact .list h1 h
  | regular h1 h => exact .regular h1 h
  | option h => exact .option h
  | record hl h => exact .record hl h
  | union hl h => exact .union hl h

theorem formAll_map (cs : List Content) : formAll cs = cs.map form := by
  induction cs with
  | nil => rfl
  | cons c cs ih => simp [formAll, ih]

theorem typeAll_map (ts : List (String × String)) (fs : List Form) :
    Form.typeAll ts fs = fs.map (Form.type ts) := by
  induction fs with
  | nil => rfl
  | cons c cs ih => simp [Form.typeAll, ih]

theorem typeAll_content (ts : List (String × String)) (cs : List Content) :
    Form.typeAll ts (formAll cs) = cs.map (type ts) := by
  rw [formAll_map, typeAll_map, List.map_map]; rfl

theorem applyAll_forall₂ {U : Type} {get : Nat → U → Content → R (Content ⊕ U)} {d : Nat} {u : U}
    {cs es : List Content} (h : applyAll get d u cs = ok es) :
    List.Forall₂ (fun c e => apply get d u c = ok e) cs es := by
  induction cs generalizing es with
  | nil => simp only [applyAll, ok.injEq] at h; subst h; exact .nil
  | cons c cs ih =>
    simp only [applyAll, bind_eq_ok, ok.injEq] at h
    obtain ⟨e, h1, es', h2, rfl⟩ := h
    exact .cons h1 (ih h2)

theorem forall₂_types {get : Nat → Int → Content → R (Content ⊕ Int)} {a d k : Nat}
    {r : AkType → AkType → Prop} (ts : List (String × String)) {cs es : List Content}
    (h : List.Forall₂ (fun c e => apply get d (a : Int) c = ok e) cs es)
    (ih : ∀ c ∈ cs, ∀ e, apply get d (a : Int) c = ok e → SameBut r k (c.type ts) (e.type ts)) :
    (cs.map (type ts)).length = (es.map (type ts)).length ∧
      ∀ x ∈ (cs.map (type ts)).zip (es.map (type ts)), SameBut r k x.1 x.2 := by
  induction h with
  | nil => simp
  | cons h1 _ ih' =>
    obtain ⟨g1, g2⟩ := ih' fun c hc => ih c (List.mem_cons_of_mem _ hc)
    refine ⟨by simpa using g1, fun x hx => ?_⟩
    simp only [List.map_cons, List.zip_cons_cons, List.mem_cons] at hx
    rcases hx with rfl | hx
    · exact ih _ List.mem_cons_self _ h1
    · exact g2 x hx

/-- The types, if `conv` relates them. -/
theorem level_types {get : Nat → Int → Content → R (Content ⊕ Int)} {conv : Content → R Content}
    {a : Nat} (hget : AtLevel get conv a) {r : AkType → AkType → Prop} (ts : List (String × String))
    (hconv : ∀ c e, c.isListNode = true → conv c = ok e → r (c.type ts) (e.type ts))
    (hr : ∀ t t' f, r t t' → r (t.setParams f) (t'.setParams f))
    {c e : Content} {k : Nat} (h1 : 1 ≤ k) (hk : k ≤ a)
    (h : apply get (a + 1 - k) (a : Int) c = ok e) : SameBut r k (c.type ts) (e.type ts) := by
  have thru : ∀ {c : Content} {k : Nat}, 1 ≤ k → k ≤ a → c.isListNode = false →
      get (a + 1 - k) a c = ok (.inr (a : Int)) := by
    intro c k h1 hk hn
    by_cases hka : k = 1
    · subst hka
      rw [show a + 1 - 1 = a by omega]
      exact hget.other c hn
    · exact hget.list _ c (by omega)
  have lists : ∀ {c : Content} {k : Nat} {rest : Int → R Content} {e : Content}, c.isListNode = true →
      1 ≤ k → k ≤ a →
      (get (a + 1 - k) a c >>= fun x => custom x rest) = ok e →
      (k = 1 ∧ r (c.type ts) (e.type ts)) ∨
        ∃ k', k = k' + 1 ∧ 1 ≤ k' ∧ k' ≤ a ∧ a + 1 - k + 1 = a + 1 - k' ∧ rest a = ok e := by
    intro c k rest e hn h1 hk h
    by_cases hka : k = 1
    · subst hka
      rw [show a + 1 - 1 = a by omega, hget.stop c hn, R.bind_assoc, bind_eq_ok] at h
      obtain ⟨x, g1, g2⟩ := h
      simp only [bind_ok, custom, ok.injEq] at g2
      subst g2
      exact .inl ⟨rfl, hconv _ _ hn g1⟩
    · rw [hget.list _ c (by omega), bind_ok, custom] at h
      exact .inr ⟨k - 1, by omega, by omega, by omega, by omega, h⟩
  induction c using Awk.Content.induct generalizing k e with
  | empty p =>
    rw [apply, thru h1 hk rfl, bind_ok, custom, ok.injEq] at h
    subst h
    exact .unknown
  | numpy p dt data =>
    rw [apply, thru h1 hk rfl, bind_ok, custom, ok.injEq] at h
    subst h
    exact .prim
  | regular p c size zeros ih =>
    rw [apply] at h
    rcases lists rfl h1 hk h with ⟨rfl, g⟩ | ⟨k', rfl, g1, g2, g3, g⟩
    · exact .here g
    · rw [g3] at g
      simp only [bind_eq_ok, ok.injEq] at g
      obtain ⟨next, w1, rfl⟩ := g
      exact .regular g1 (ih g1 g2 w1)
  | listArray p starts stops c ih =>
    rw [apply] at h
    rcases lists rfl h1 hk h with ⟨rfl, g⟩ | ⟨k', rfl, g1, g2, g3, g⟩
    · exact .here g
    · rw [g3] at g
      simp only [bind_eq_ok, ok.injEq] at g
      obtain ⟨next, w1, rfl⟩ := g
      exact .list g1 (ih g1 g2 w1)
  | listOffset p offsets c ih =>
    rw [apply] at h
    rcases lists rfl h1 hk h with ⟨rfl, g⟩ | ⟨k', rfl, g1, g2, g3, g⟩
    · exact .here g
    · rw [g3] at g
      simp only [bind_eq_ok, ok.injEq] at g
      obtain ⟨next, w1, rfl⟩ := g
      exact .list g1 (ih g1 g2 w1)
  | indexed p index c ih =>
    rw [apply, thru h1 hk rfl, bind_ok, custom] at h
    simp only [bind_eq_ok, ok.injEq] at h
    obtain ⟨next, w1, rfl⟩ := h
    exact SameBut.setParams (fun t t' => hr t t' _) (ih h1 hk w1)
  | indexedOption p index c ih =>
    rw [apply, thru h1 hk rfl, bind_ok, custom] at h
    simp only [bind_eq_ok, ok.injEq] at h
    obtain ⟨next, w1, rfl⟩ := h
    exact .option (ih h1 hk w1)
  | byteMasked p mask vw c ih =>
    rw [apply, thru h1 hk rfl, bind_ok, custom] at h
    simp only [bind_eq_ok, ok.injEq] at h
    obtain ⟨next, w1, rfl⟩ := h
    exact .option (ih h1 hk w1)
  | bitMasked p mask vw length lsb c ih =>
    rw [apply, thru h1 hk rfl, bind_ok, custom] at h
    simp only [bind_eq_ok, ok.injEq] at h
    obtain ⟨next, w1, rfl⟩ := h
    exact .option (ih h1 hk w1)
  | unmasked p c ih =>
    rw [apply, thru h1 hk rfl, bind_ok, custom] at h
    simp only [bind_eq_ok, ok.injEq] at h
    obtain ⟨next, w1, rfl⟩ := h
    exact .option (ih h1 hk w1)
  | record p keys cs length ih =>
    rw [apply, thru h1 hk rfl, bind_ok, custom] at h
    simp only [bind_eq_ok, ok.injEq] at h
    obtain ⟨next, w1, rfl⟩ := h
    have := forall₂_types ts (applyAll_forall₂ w1) (fun c hc e he => ih c hc h1 hk he)
    rw [← typeAll_content, ← typeAll_content] at this
    exact .record this.1 this.2
  | union p tags index cs ih =>
    rw [apply, thru h1 hk rfl, bind_ok, custom] at h
    simp only [bind_eq_ok, ok.injEq] at h
    obtain ⟨next, w1, rfl⟩ := h
    have := forall₂_types ts (applyAll_forall₂ w1) (fun c hc e he => ih c hc h1 hk he)
    rw [← typeAll_content, ← typeAll_content] at this
    exact .union this.1 this.2

/-- What `from_regular` does to a list node at its axis. -/
def varLists : Content → R Content
  | regular p c size zeros =>
    (regular p c size zeros).listParts >>= fun oc => ok (listOffset p oc.1 oc.2)
  | c => ok c

theorem fromRegular_level {a : Nat} (ha : 1 ≤ a) : AtLevel fromRegularGet varLists a := by
  have h0 : ¬ (a : Int) = 0 := by omega
  refine ⟨?_, ?_, ?_⟩
  · intro c hl
    cases c <;> simp only [isListNode, Bool.false_eq_true] at hl <;>
      simp only [fromRegularGet, axisWrap_nat, bind_ok, if_true, varLists, R.bind_assoc]
  · intro d c hd
    have hne : ¬ (a : Int) = (d : Int) := by omega
    cases c <;> simp only [fromRegularGet, axisWrap_nat, bind_ok, if_neg hne, if_neg h0]
  · intro c hl
    cases c <;> simp only [isListNode, Bool.true_eq_false] at hl <;>
      simp only [fromRegularGet, axisWrap_nat, bind_ok, if_neg h0]

theorem toRegular_level {a : Nat} (ha : 1 ≤ a) : AtLevel toRegularGet toRegular a := by
  have h0 : ¬ (a : Int) = 0 := by omega
  refine ⟨?_, ?_, ?_⟩
  · intro c hl
    cases c <;> simp only [isListNode, Bool.false_eq_true] at hl <;>
      simp only [toRegularGet, axisWrap_nat, bind_ok, if_true, toRegular]
  · intro d c hd
    have hne : ¬ (a : Int) = (d : Int) := by omega
    cases c <;> simp only [toRegularGet, axisWrap_nat, bind_ok, if_neg hne, if_neg h0]
  · intro c hl
    cases c <;> simp only [isListNode, Bool.true_eq_false] at hl <;>
      simp only [toRegularGet, axisWrap_nat, bind_ok, if_neg h0]

theorem varLists_maps {c : Content} (hg : c.Good) (hl : c.isListNode = true) :
    ∃ e, varLists c = ok e ∧ MapsG True c e id := by
  cases c <;> simp only [isListNode, Bool.false_eq_true] at hl
  case regular p c size zeros =>
    obtain ⟨offs, d, h1, h2, _⟩ := listParts_ok hg rfl
    refine ⟨listOffset p offs d, by simp only [varLists, h1, bind_ok], ?_⟩
    rw [h2.offs_eq]
    refine ⟨⟨good_offsTo h2.good h2.bound, by simp [len], ?_⟩, fun _ => by simp [len]⟩
    intro i hi
    rw [valD_offsTo h2.good h2.bound hi, id, h2.vals i hi]
    rfl
  all_goals exact ⟨_, rfl, ⟨hg, Nat.le_refl _, fun _ _ => rfl⟩, fun _ => rfl⟩

theorem regularParts_type (ts : List (String × String)) {p : Params} {c d : Content}
    {size zeros : Nat} {offs : List Int}
    (h : (regular p c size zeros).listParts = ok (offs, d)) : d.type ts = c.type ts := by
  simp only [listParts, regularBroadcast, bind_eq_ok, ok.injEq, Prod.mk.injEq] at h
  obtain ⟨_, _, e, h, _, rfl⟩ := h
  split at h
  · simp at h
  · simp only [bind_eq_ok] at h
    obtain ⟨first, _, h⟩ := h
    split at h
    · simp at h
    · split at h
      · simp at h
      · split at h
        · simp only [bind_eq_ok] at h
          obtain ⟨_, _, _, _, h⟩ := h
          exact carry_type ts h
        · simp only [bind_eq_ok, ok.injEq] at h
          obtain ⟨_, _, rfl⟩ := h
          rfl

theorem varLists_type (ts : List (String × String)) {c e : Content} (hl : c.isListNode = true)
    (h : varLists c = ok e) : ToVar (c.type ts) (e.type ts) := by
  cases c <;> simp only [isListNode, Bool.false_eq_true] at hl
  case regular p c size zeros =>
    simp only [varLists, bind_eq_ok, ok.injEq] at h
    obtain ⟨⟨offs, d⟩, h1, rfl⟩ := h
    have := regularParts_type ts h1
    simp only [type] at this
    simp only [type, form, Form.type, this]
    exact .regular
  all_goals
    simp only [varLists, ok.injEq] at h
    subst h
    exact .list

theorem listParts_type (ts : List (String × String)) {p : Params} {starts stops : List Int}
    {c d : Content} {offs : List Int}
    (h : (listArray p starts stops c).listParts = ok (offs, d)) : d.type ts = c.type ts := by
  simp only [listParts, listBroadcast, bind_eq_ok, ok.injEq, Prod.mk.injEq] at h
  obtain ⟨_, _, e, h, _, rfl⟩ := h
  split at h
  · simp at h
  · simp only [bind_eq_ok] at h
    obtain ⟨first, _, h⟩ := h
    split at h
    · simp at h
    · split at h
      · simp at h
      · simp only [bind_eq_ok] at h
        obtain ⟨_, _, _, _, h⟩ := h
        exact carry_type ts h

theorem toRegular_type (ts : List (String × String)) {c e : Content} (hl : c.isListNode = true)
    (h : c.toRegular = ok e) : ToFixed (c.type ts) (e.type ts) := by
  have offset : ∀ {p : Params} {offsets : List Int} {c e : Content},
      listOffsetToRegular p offsets c = ok e →
      ∃ d size zeros, e = regular p d size zeros ∧ d.type ts = c.type ts := by
    intro p offsets c e h
    simp only [listOffsetToRegular, bind_eq_ok, ok.injEq] at h
    obtain ⟨_, _, _, _, d, h1, _, _, rfl⟩ := h
    exact ⟨d, _, _, rfl, range_type ts h1⟩
  cases c <;> simp only [isListNode, Bool.false_eq_true] at hl
  case regular p c size zeros =>
    simp only [toRegular, ok.injEq] at h
    subst h
    exact .regular
  case listArray p starts stops c =>
    simp only [toRegular, bind_eq_ok] at h
    obtain ⟨⟨offs, d⟩, h1, h2⟩ := h
    obtain ⟨d', size, zeros, rfl, h3⟩ := offset h2
    have := h3.trans (listParts_type ts h1)
    simp only [type] at this
    simp only [type, form, Form.type, this]
    exact .list
  case listOffset p offsets c =>
    simp only [toRegular] at h
    obtain ⟨d', size, zeros, rfl, h3⟩ := offset h
    simp only [type] at h3
    simp only [type, form, Form.type, h3]
    exact .list

/-- Only the user argument that the node itself gets matters. -/
theorem apply_congr {U : Type} {get : Nat → U → Content → R (Content ⊕ U)} {d : Nat} {u u' : U}
    {c : Content} (h : get d u c = get d u' c) : apply get d u c = apply get d u' c := by
  cases c <;> simp only [apply, h]

theorem levelAt_true (c : Content) {k : Nat} (h1 : 1 ≤ k) : LevelAt (fun _ => True) k c := by
  induction c using Awk.Content.induct generalizing k
  case empty => exact .other rfl (by simp [children])
  case numpy => exact .other rfl (by simp [children])
  case regular ih =>
    by_cases hk : k = 1
    · subst hk; exact .here rfl trivial
    · obtain ⟨k', rfl⟩ : ∃ k', k = k' + 1 := ⟨k - 1, by omega⟩
      refine .inside rfl (by omega) fun d hd => ?_
      simp only [children, List.mem_singleton] at hd
      subst hd
      exact ih (by omega)
  case listArray ih =>
    by_cases hk : k = 1
    · subst hk; exact .here rfl trivial
    · obtain ⟨k', rfl⟩ : ∃ k', k = k' + 1 := ⟨k - 1, by omega⟩
      refine .inside rfl (by omega) fun d hd => ?_
      simp only [children, List.mem_singleton] at hd
      subst hd
      exact ih (by omega)
  case listOffset ih =>
    by_cases hk : k = 1
    · subst hk; exact .here rfl trivial
    · obtain ⟨k', rfl⟩ : ∃ k', k = k' + 1 := ⟨k - 1, by omega⟩
      refine .inside rfl (by omega) fun d hd => ?_
      simp only [children, List.mem_singleton] at hd
      subst hd
      exact ih (by omega)
  case record ih => exact .other rfl fun d hd => ih d hd h1
  case union ih => exact .other rfl fun d hd => ih d hd h1
  all_goals
    rename_i ih
    refine .other rfl fun d hd => ?_
    simp only [children, List.mem_singleton] at hd
    subst hd
    exact ih h1

/-- `from_regular` keeps the elements and changes the type. -/
theorem fromRegular_ok {c : Content} {a : Nat} (hg : c.Good) (ha : 1 ≤ a) :
    ∃ e, c.fromRegular a = ok e ∧ MapsG True c e id ∧
      ∀ ts, SameBut ToVar a (c.type ts) (e.type ts) := by
  have hl := level_maps (fromRegular_level ha) (φ := fun _ => True)
    (fun c hg hl _ => varLists_maps hg hl) hg ha (Nat.le_refl a) (levelAt_true c ha)
  obtain ⟨e, h1, h2⟩ := apply_maps hl hg
  refine ⟨e, ?_, h2, fun ts => ?_⟩
  · rw [fromRegular, if_neg (by omega), ← h1, show a + 1 - a = 1 by omega]
  · refine level_types (fromRegular_level ha) ts (fun c e hl h => varLists_type ts hl h) ?_ ha
      (Nat.le_refl a) h1
    intro t t' f h
    cases h
    · exact .regular
    · exact .list

/-- `to_regular` keeps the elements and changes the type. -/
theorem toRegularAxis_ok {c : Content} {a : Nat} (hg : c.Good) (ha : 1 ≤ a)
    (hl : LevelAt (fun c => OffsetsInRange c ∧ ∀ i, i < c.len → c.lens i = c.lens 0) a c) :
    ∃ e, c.toRegularAxis a = ok e ∧ MapsG True c e id ∧
      ∀ ts, SameBut ToFixed a (c.type ts) (e.type ts) := by
  have hl := level_maps (toRegular_level ha) (fun c hg hl hφ => by
    obtain ⟨e, h1, h2, h3, h4, _⟩ := (toRegular_ok hg hl hφ.1).1 hφ.2
    exact ⟨e, h1, ⟨h2, by omega, fun i hi => h4 i hi⟩, fun _ => h3⟩) hg ha (Nat.le_refl a) hl
  obtain ⟨e, h1, h2⟩ := apply_maps hl hg
  refine ⟨e, ?_, h2, fun ts => ?_⟩
  · rw [toRegularAxis, if_neg (by omega), ← h1, show a + 1 - a = 1 by omega]
  · refine level_types (toRegular_level ha) ts (fun c e hl h => toRegular_type ts hl h) ?_ ha
      (Nat.le_refl a) h1
    intro t t' f h
    cases h
    · exact .list
    · exact .regular

end Content
end Awk
