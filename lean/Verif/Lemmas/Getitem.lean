import Verif.Lemmas.GetitemKernels
import Verif.Lemmas.Closed
import Verif.Lemmas.Maps
import Verif.Lemmas.Pad
/-
The parts of the proof that `getitem_next` applies a slice level by level.
-/

namespace Awk
open R Spec

/-! ### The specification on the values of each node -/

namespace Spec

theorem select_cons {it : SliceItem} (h : it ≠ .newaxis) (rest : List SliceItem) (adv : Option Nat)
    (v : Val) : select (it :: rest) adv v = selItem it (select rest) adv v := by
  cases it with
  | newaxis => exact absurd rfl h
  | _ => simp [select]

theorem selItem_wrapList (it : SliceItem) (k : Option Nat → Val → Option Val) (adv : Option Nat)
    (p : Params) (vs : List Val) :
    selItem it k adv (wrapList p vs) = selList (wrapList p) k adv vs it := by
  have : wrapList p = (match p.arr with
      | .string => Val.str
      | .bytestring => Val.bytes
      | _ => Val.list) := by
    funext vs; unfold wrapList; cases p.arr <;> rfl
  rw [this]
  cases p.arr <;> simp [selItem]

theorem selItems_eq (it : SliceItem) (k : Option Nat → Val → Option Val) (adv : Option Nat)
    (vs : List Val) : selItems it k adv vs = vs.mapM (selItem it k adv) := by
  induction vs with
  | nil => simp [selItems]
  | cons v vs ih =>
    simp only [selItems, ih, List.mapM_cons]
    cases selItem it k adv v <;> simp
    cases List.mapM (selItem it k adv) vs <;> rfl

theorem selFields_zip (it : SliceItem) (k : Option Nat → Val → Option Val) (adv : Option Nat)
    (ks : List String) (vs ws : List Val) (h : vs.mapM (selItem it k adv) = some ws) :
    selFields it k adv (ks.zip vs) = some (ks.zip ws) := by
  induction ks generalizing vs ws with
  | nil => simp [selFields]
  | cons key ks ih =>
    cases vs with
    | nil => simp only [List.mapM_nil] at h; cases h; simp [selFields]
    | cons v vs =>
      simp only [List.mapM_cons] at h
      cases h1 : selItem it k adv v with
      | none => rw [h1] at h; simp at h
      | some w =>
        rw [h1] at h
        cases h2 : List.mapM (selItem it k adv) vs with
        | none => rw [h2] at h; simp at h
        | some us =>
          rw [h2] at h
          simp only [Option.bind_eq_bind, Option.bind_some, Option.pure_def] at h
          cases h
          simp only [List.zip_cons_cons, selFields, h1, Option.bind_some, ih vs us h2,
            Option.map_some]

theorem selFields_isSome {it : SliceItem} {k : Option Nat → Val → Option Val} {adv : Option Nat}
    {ks : List String} {vs : List Val} (hl : vs.length ≤ ks.length)
    (h : (selFields it k adv (ks.zip vs)).isSome) : ∀ v ∈ vs, (selItem it k adv v).isSome := by
  induction ks generalizing vs with
  | nil =>
    have : vs = [] := List.length_eq_zero_iff.mp (by simpa using hl)
    subst this; simp
  | cons key ks ih =>
    cases vs with
    | nil => simp
    | cons v vs =>
      simp only [List.zip_cons_cons, selFields] at h
      cases h1 : selItem it k adv v with
      | none => rw [h1] at h; simp at h
      | some w =>
        rw [h1] at h
        simp only [Option.bind_some, Option.isSome_map] at h
        intro y hy
        cases hy with
        | head => simp [h1]
        | tail _ hy => exact ih (by simpa using hl) h y hy

theorem mapM_of_get {f : α → Option β} {xs : List α} {ys : List β} (hl : xs.length = ys.length)
    (h : ∀ i (h : i < xs.length), f xs[i] = some (ys[i]'(hl ▸ h))) : xs.mapM f = some ys := by
  induction xs generalizing ys with
  | nil => cases ys with
    | nil => rfl
    | cons y ys => simp at hl
  | cons x xs ih =>
    cases ys with
    | nil => simp at hl
    | cons y ys =>
      have h0 := h 0 (by simp)
      simp only [List.getElem_cons_zero] at h0
      have hr := ih (ys := ys) (by simpa using hl) (fun i hi => by
        have := h (i + 1) (by simpa using hi)
        simpa using this)
      simp [List.mapM_cons, h0, hr]

theorem mapM_isSome {f : α → Option β} {xs : List α} (h : (xs.mapM f).isSome) :
    ∀ x ∈ xs, (f x).isSome := by
  induction xs with
  | nil => simp
  | cons x xs ih =>
    simp only [List.mapM_cons] at h
    cases h1 : f x with
    | none => rw [h1] at h; simp at h
    | some w =>
      rw [h1] at h
      cases h2 : List.mapM f xs with
      | none => rw [h2] at h; simp at h
      | some us =>
        intro y hy
        cases hy with
        | head => simp [h1]
        | tail _ hy => exact ih (by rw [h2]; rfl) y hy

theorem selItem_mkRecord {it : SliceItem} {k : Option Nat → Val → Option Val} {adv : Option Nat}
    {keys : Option (List String)} {vs ws : List Val} (h : vs.mapM (selItem it k adv) = some ws) :
    selItem it k adv (mkRecord keys vs) = some (mkRecord keys ws) := by
  cases keys with
  | none => simp [mkRecord, selItem, selItems_eq, h]
  | some ks => simp [mkRecord, selItem, selFields_zip it k adv ks vs ws h]

/-! ### Which slices fit -/

section
variable {b : Bool} {m : Nat} {mode : Mode} {it : SliceItem} {rest : List SliceItem}

theorem Fits.closed (b : Bool) (m : Nat) :
    Content.Closed (fun (a : Mode × List SliceItem) c => Fits b m a.1 a.2 c) where
  lazy := by
    rintro ⟨mode, items⟩ idx c _ h
    dsimp only at h ⊢
    induction items with
    | nil => exact .nil
    | cons it rest ih =>
      by_cases hn : it = .newaxis
      · subst hn
        cases h with
        | newaxis h1 h2 => exact .newaxis (by simp) (ih h2)
        | list _ _ h3 => cases mode <;> simp [nextMode] at h3
        | index h1 => exact absurd rfl h1
        | option h1 => exact absurd rfl h1
        | record h1 => exact absurd rfl h1
      · exact .index hn rfl (by simpa [Content.children] using h)
  node := by
    rintro c' c hcls hloc hd ⟨mode, items⟩ h
    dsimp only at h ⊢
    have hd' : ∀ mode items, (∀ d ∈ c.children, Fits b m mode items d) →
        ∀ d ∈ c'.children, Fits b m mode items d := by
      intro mode items hx d hdm
      obtain ⟨d0, h0, h1⟩ := hd d hdm
      exact h1 (mode, items) (hx d0 h0)
    induction items with
    | nil => exact .nil
    | cons it rest ih =>
      cases h with
      | newaxis h1 h2 =>
        refine .newaxis ?_ (ih h2)
        intro p k cs n he
        subst he
        cases c <;> simp only [Content.cls] at hcls <;> first | exact h1 _ _ _ _ rfl | omega
      | list h1 h2 h3 h4 h5 =>
        refine .list ?_ h2 h3 ?_ (hd' _ _ h5)
        · cases c <;> simp only [Content.isListNode, Bool.false_eq_true] at h1 <;>
            cases c' <;> simp only [Content.cls] at hcls <;>
            first | rfl | omega
        · intro hb p d size zeros he
          obtain ⟨p', d', z', he'⟩ := hloc.reg p d size zeros he
          exact h4 hb _ _ _ _ he'
      | index h1 h2 h3 =>
        refine .index h1 ?_ (hd' _ _ h3)
        cases c <;> simp only [isIndex, Bool.false_eq_true] at h2 <;>
          cases c' <;> simp only [Content.cls] at hcls <;> first | rfl | omega
      | option h1 h2 h3 =>
        refine .option h1 ?_ (hd' _ _ h3)
        cases c <;> simp only [canMiss, Bool.false_eq_true] at h2 <;>
          cases c' <;> simp only [Content.cls] at hcls <;> first | rfl | omega
      | @record _ _ p keys cs length h1 h2 h3 h5 h4 =>
        cases c' with
        | record p' keys' cs' length' =>
          have hw := hloc.width
          refine .record h1 ?_ (fun _ => hloc.trim _ _ _ _ rfl) ?_ (hd' _ _ h4)
          · intro he
            simp only [Content.children, he, List.length_nil] at hw
            exact h2 (List.length_eq_zero_iff.mp hw.symm)
          · intro hb ks hks
            obtain ⟨_, _, _, he⟩ := hloc.keys _ _ _ _ rfl
            simp only [Content.record.injEq] at he
            simp only [Content.children] at hw
            rw [h5 hb ks (by rw [he.2.1, hks]), hw]
        | _ => simp only [Content.cls] at hcls; omega

theorem Fits.inv_newaxis {c : Content} (h : Fits b m mode (.newaxis :: rest) c) :
    (∀ p k cs n, c ≠ .record p k cs n) ∧ Fits b m mode rest c := by
  cases h with
  | newaxis h1 h2 => exact ⟨h1, h2⟩
  | list _ _ h3 => cases mode <;> simp [nextMode] at h3
  | index h1 => exact absurd rfl h1
  | option h1 => exact absurd rfl h1
  | record h1 => exact absurd rfl h1

theorem Fits.inv_list {c : Content} (h : Fits b m mode (it :: rest) c) (hn : it ≠ .newaxis)
    (hl : c.isListNode = true) :
    ∃ mode', ItemOk m it ∧ nextMode mode it = Option.some mode' ∧
      (b = true → ∀ p d size zeros, c = .regular p d size zeros → SizeOk it size) ∧
      ∀ d ∈ c.children, Fits b m mode' rest d := by
  cases h with
  | newaxis => exact absurd rfl hn
  | list h1 h2 h3 h4 h5 => exact ⟨_, h2, h3, h4, h5⟩
  | index h1 h2 => cases c <;> simp [isIndex] at h2 <;> simp [Content.isListNode] at hl
  | option h1 h2 => cases c <;> simp [canMiss] at h2 <;> simp [Content.isListNode] at hl
  | record => simp [Content.isListNode] at hl

theorem Fits.inv_index {c : Content} (h : Fits b m mode (it :: rest) c) (hn : it ≠ .newaxis)
    (hl : isIndex c = true) : ∀ d ∈ c.children, Fits b m mode (it :: rest) d := by
  cases h with
  | newaxis => exact absurd rfl hn
  | list h1 => cases c <;> simp [isIndex] at hl <;> simp [Content.isListNode] at h1
  | index h1 h2 h3 => exact h3
  | option h1 h2 => cases c <;> simp [canMiss] at h2 <;> simp [isIndex] at hl
  | record => simp [isIndex] at hl

theorem Fits.inv_option {c : Content} (h : Fits b m mode (it :: rest) c) (hn : it ≠ .newaxis)
    (hl : canMiss c = true) : mode = .none ∧ ∀ d ∈ c.children, Fits b m .none (it :: rest) d := by
  cases h with
  | newaxis => exact absurd rfl hn
  | list h1 => cases c <;> simp [canMiss] at hl <;> simp [Content.isListNode] at h1
  | option h1 h2 h3 => exact ⟨rfl, h3⟩
  | index h1 h2 => cases c <;> simp [canMiss] at hl <;> simp [isIndex] at h2
  | record => simp [canMiss] at hl

theorem Fits.inv_record {p : Params} {keys : Option (List String)} {cs : List Content}
    {length : Nat} (h : Fits b m mode (it :: rest) (.record p keys cs length)) :
    rest = [] ∧ it ≠ .newaxis ∧ cs ≠ [] ∧ (mode ≠ .none ∨ b = true → ∀ d ∈ cs, d.len = length) ∧
      (b = true → ∀ ks, keys = some ks → ks.length = cs.length) ∧
      ∀ d ∈ cs, Fits b m mode [it] d := by
  cases h with
  | newaxis h1 => exact absurd rfl (h1 _ _ _ _)
  | list h1 => simp [Content.isListNode] at h1
  | option h1 h2 => simp [canMiss] at h2
  | index h1 h2 => simp [isIndex] at h2
  | record h1 h2 h3 h5 h4 => exact ⟨rfl, h1, h2, h3, h5, h4⟩

theorem Fits.inv_leaf {c : Content} (h : Fits b m mode (it :: rest) c) (hn : it ≠ .newaxis)
    (hl : c.children = []) (hc : ∀ p k cs n, c ≠ .record p k cs n) : False := by
  cases h with
  | newaxis => exact hn rfl
  | list h1 => cases c <;> simp [Content.children] at hl <;> simp [Content.isListNode] at h1
  | option h1 h2 => cases c <;> simp [Content.children] at hl <;> simp [canMiss] at h2
  | index h1 h2 => cases c <;> simp [Content.children] at hl <;> simp [isIndex] at h2
  | record h1 h2 h3 h4 => exact hc _ _ _ _ rfl

theorem Fits.inv_union {p : Params} {tags index : List Int} {cs : List Content}
    (h : Fits b m mode (it :: rest) (.union p tags index cs)) (hn : it ≠ .newaxis) : False := by
  cases h with
  | newaxis => exact hn rfl
  | list h1 => simp [Content.isListNode] at h1
  | option h1 h2 => simp [canMiss] at h2
  | index h1 h2 => simp [isIndex] at h2

end
end Spec

/-! ### The position in the index arrays -/

/-- The `advanced` buffer of an array of `n` elements, for the specification's positions `J`. -/
def AdvOk (m : Nat) (mode : Mode) (adv : Adv) (J : Nat → Option Nat) (n : Nat) : Prop :=
  match mode with
  | .none => adv = none ∧ ∀ i, i < n → J i = none
  | .ident => ∃ a, adv = some a ∧ n ≤ a.length ∧
      ∀ i, i < n → a[i]? = some (i : Int) ∧ J i = some i ∧ i < m
  | .some => ∃ a, adv = some a ∧ n ≤ a.length ∧
      ∀ i, i < n → ∃ j, j < m ∧ a[i]? = some (j : Int) ∧ J i = some j
  | .junk => ∃ a, adv = some a ∧ n ≤ a.length ∧ ∀ i, i < n → ∃ j, J i = some j

/-- `x i`, repeated `f i` times. -/
def spread (f : Nat → Nat) (x : Nat → α) (n : Nat) : List α :=
  ((List.range n).map (fun i => List.replicate (f i) (x i))).flatten

theorem spread_length (f : Nat → Nat) (x : Nat → α) (n : Nat) :
    (spread f x n).length = sumTo f n := by
  rw [spread, flatten_map_length]
  exact sumTo_congr (fun i _ => by simp)

theorem spread_get {f : Nat → Nat} {x : Nat → α} {n i k : Nat} (hi : i < n) (hk : k < f i) :
    (spread f x n)[sumTo f i + k]? = some (x i) := by
  have := flatten_map_get (fun i => List.replicate (f i) (x i)) hi (k := k) (by simpa using hk)
  rw [sumTo_congr (g := f) (fun i _ => by simp)] at this
  rw [spread, this]
  simp [hk]

/-- The positions below a range. -/
def spreadJ (f : Nat → Nat) (J : Nat → Option Nat) (n : Nat) (t : Nat) : Option Nat :=
  ((spread f J n)[t]?).getD none

theorem spreadJ_get {f : Nat → Nat} {J : Nat → Option Nat} {n i k : Nat} (hi : i < n)
    (hk : k < f i) : spreadJ f J n (sumTo f i + k) = J i := by
  rw [spreadJ, spread_get hi hk]; rfl

theorem AdvOk.len {m : Nat} {mode : Mode} {a : List Int} {J : Nat → Option Nat} {n : Nat}
    (h : AdvOk m mode (some a) J n) : n ≤ a.length := by
  cases mode <;> simp only [AdvOk] at h
  · simp at h
  all_goals (obtain ⟨_, h1, h2, _⟩ := h; cases h1; exact h2)

theorem AdvOk.congr {m : Nat} {mode : Mode} {adv : Adv} {J J' : Nat → Option Nat} {n : Nat}
    (h : AdvOk m mode adv J n) (hj : ∀ i, i < n → J' i = J i) : AdvOk m mode adv J' n := by
  cases mode <;> simp only [AdvOk] at h ⊢
  · exact ⟨h.1, fun i hi => by rw [hj i hi, h.2 i hi]⟩
  · obtain ⟨a, h1, h2, h3⟩ := h
    exact ⟨a, h1, h2, fun i hi => by rw [hj i hi]; exact h3 i hi⟩
  · obtain ⟨a, h1, h2, h3⟩ := h
    exact ⟨a, h1, h2, fun i hi => by rw [hj i hi]; exact h3 i hi⟩
  · obtain ⟨a, h1, h2, h3⟩ := h
    exact ⟨a, h1, h2, fun i hi => by rw [hj i hi]; exact h3 i hi⟩

/-- The `advanced` buffer below a range. -/
theorem AdvOk.spread {m : Nat} {mode mode' : Mode} {adv : Adv} {J : Nat → Option Nat} {n : Nat}
    (h : AdvOk m mode adv J n) {start stop : Option Int} {step : Int}
    (hm : nextMode mode (.range start stop step) = some mode') (f : Nat → Nat) :
    AdvOk m mode' (adv.map (fun a => Awk.spread f (fun i => a[i]?.getD 0) n)) (spreadJ f J n)
      (sumTo f n) := by
  have loc : ∀ t, t < sumTo f n → ∃ i, i < n ∧ spreadJ f J n t = J i ∧
      ∀ a : List Int, (Awk.spread f (fun i => a[i]?.getD 0) n)[t]? = some (a[i]?.getD 0) := by
    intro t ht
    obtain ⟨i, k, hi, hk, rfl⟩ := sumTo_locate ht
    exact ⟨i, hi, spreadJ_get hi hk, fun a => spread_get hi hk⟩
  cases mode with
  | none =>
    simp only [nextMode, Option.some.injEq] at hm; subst hm
    obtain ⟨rfl, h2⟩ := h
    refine ⟨rfl, fun t ht => ?_⟩
    obtain ⟨i, hi, h3, _⟩ := loc t ht
    rw [h3, h2 i hi]
  | ident =>
    simp only [nextMode, Option.some.injEq] at hm; subst hm
    obtain ⟨a, rfl, h2, h3⟩ := h
    refine ⟨_, rfl, by rw [spread_length], fun t ht => ?_⟩
    obtain ⟨i, hi, h4, h5⟩ := loc t ht
    obtain ⟨h6, h7, h8⟩ := h3 i hi
    exact ⟨i, h8, by rw [h5, h6]; rfl, by rw [h4, h7]⟩
  | some =>
    simp only [nextMode, Option.some.injEq] at hm; subst hm
    obtain ⟨a, rfl, h2, h3⟩ := h
    refine ⟨_, rfl, by rw [spread_length], fun t ht => ?_⟩
    obtain ⟨i, hi, h4, h5⟩ := loc t ht
    obtain ⟨j, h6, h7, h8⟩ := h3 i hi
    exact ⟨j, h6, by rw [h5, h7]; rfl, by rw [h4, h8]⟩
  | junk =>
    simp only [nextMode, Option.some.injEq] at hm; subst hm
    obtain ⟨a, rfl, h2, h3⟩ := h
    refine ⟨_, rfl, by rw [spread_length], fun t ht => ?_⟩
    obtain ⟨i, hi, h4, h5⟩ := loc t ht
    obtain ⟨j, h6⟩ := h3 i hi
    exact ⟨j, by rw [h4, h6]⟩

end Awk
