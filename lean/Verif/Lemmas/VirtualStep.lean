import Verif.Lemmas.Virtual
/-
One operation on a lazy array that agrees with an array gives a result that agrees with the
result of the operation on that array.
-/

namespace Awk
open R Spec Content

theorem check_ok_of {form : Option Form} {length : Option Nat} {c : Content}
    (hl : ∀ n, length = some n → n = c.len) (hf : ∀ f, form = some f → f = c.form)
    (hs : c.form.Settled) : checkGenerated form length c = ok c := by
  have hr : checkGenerated.rest form c = ok c := by
    unfold checkGenerated.rest
    cases form with
    | none => rfl
    | some f =>
      have := hf f rfl
      subst this
      simp only [Form.equal_refl _ hs]
      rfl
  unfold checkGenerated
  cases length with
  | none => exact hr
  | some n =>
    have := hl n rfl
    subst this
    simp only
    rw [if_neg (by omega)]
    exact hr

/-- The bounds of a range, for an array of `n` items. -/
theorem range_bounds (n : Nat) {start stop : Option Int} (h1 : GoodArg start) (h2 : GoodArg stop) :
    ∃ a b : Nat, a ≤ b ∧ b ≤ n ∧
      regularize_rangeslice (sliceArg start) (sliceArg stop) true (sliceArg start != kSliceNone)
        (sliceArg stop != kSliceNone) n = ((a : Int), (b : Int)) := by
  obtain ⟨a, b, q1, q2, q3, _⟩ := pySlice_one (List.replicate n ()) start stop
  rw [List.length_replicate] at q2 q3
  exact ⟨a, b, q1, q2, by rw [regularize_pos h1 h2 (by omega) (by omega : (0:Int) < 1), ← q3]⟩

theorem getitemRange_bounds {c : Content} {start stop : Option Int} {a b n : Nat}
    (h : regularize_rangeslice (sliceArg start) (sliceArg stop) true (sliceArg start != kSliceNone)
        (sliceArg stop != kSliceNone) n = ((a : Int), (b : Int))) (hl : c.len = n) :
    c.getitemRange (sliceArg start) (sliceArg stop) = c.range a b := by
  unfold Content.getitemRange
  rw [hl, h]

/-- Bounds that were already computed stay as they are. -/
theorem range_again {a b n : Nat} (hab : a ≤ b) (hb : b ≤ n) (hn : (n : Int) < kSliceNone)
    {c : Content} (hl : c.len = n) : c.getitemRange (a : Int) (b : Int) = c.range a b := by
  unfold Content.getitemRange
  have ha' : ((a : Int) != kSliceNone) = true := by simp; omega
  have hb' : ((b : Int) != kSliceNone) = true := by simp; omega
  rw [ha', hb', hl]
  have : regularize_rangeslice (a : Int) (b : Int) true true true (n : Int) = ((a : Int), (b : Int)) := by
    unfold regularize_rangeslice
    simp only [if_true, Bool.not_true, Bool.false_eq_true, if_false]
    have h1 : ¬ (a : Int) < 0 := by omega
    have h2 : ¬ (b : Int) < 0 := by omega
    have h3 : ¬ (a : Int) > n := by omega
    have h4 : ¬ (b : Int) > n := by omega
    have h5 : ¬ (b : Int) < a := by omega
    simp only [h1, h2, h3, h4, h5, if_false]
  rw [this]

theorem LazyOp.Ok.twin {op : LazyOp} {c d : Content} (h : op.Ok c) (t : Twin c d) : op.Ok d := by
  cases op with
  | fields s => exact ⟨hasFields_form h.1 t.form, h.2⟩
  | _ => exact h

theorem pySlicePositions_length {n : Nat} {start stop : Option Int} {step : Int} (h1 : GoodArg start)
    (h2 : GoodArg stop) (h0 : step ≠ 0) :
    regular_nextsize
      (regularize_rangeslice (sliceArg start) (sliceArg stop) (decide (step > 0))
        (sliceArg start != kSliceNone) (sliceArg stop != kSliceNone) n).1
      (regularize_rangeslice (sliceArg start) (sliceArg stop) (decide (step > 0))
        (sliceArg start != kSliceNone) (sliceArg stop != kSliceNone) n).2 step
      = ((pySlicePositions n start stop step).length : Int) := by
  have := regular_range_carry_one (len := (n : Int)) (by omega) h1 h2 h0
  unfold regular_range_carry at this
  rw [if_neg h0] at this
  simp only [bind_eq_ok, ok.injEq, Prod.mk.injEq] at this
  obtain ⟨_, _, h, _⟩ := this
  exact h

/-- An increasing or decreasing range has at most as many items as the array. -/
theorem pySlicePositions_le {n : Nat} {start stop : Option Int} {step : Int} (h0 : step ≠ 0) :
    (pySlicePositions n start stop step).length ≤ n := by
  have key : ∀ x s : Int, x ≤ n → 0 < s → ((x + s - 1) / s).toNat ≤ n := by
    intro x s hx hs
    have h1 : x + s - 1 < ((n : Int) + 1) * s := by
      have : (n : Int) * 1 ≤ n * s := Int.mul_le_mul_of_nonneg_left (by omega) (by omega)
      have e : ((n : Int) + 1) * s = n * s + s := by ring
      omega
    have := Int.ediv_lt_of_lt_mul hs h1
    omega
  simp only [pySlicePositions, pyRange, List.length_map, List.length_range, pyRangeLen]
  split
  · rename_i h
    have := pyIndices_pos_bounds (len := (n : Int)) (by omega) start stop h
    exact key _ _ (by omega) h
  · have := pyIndices_neg_bounds (len := (n : Int)) (by omega) start stop (step := step) (by omega)
    exact key _ _ (by omega) (by omega)

/-- The item of a slice with steps, positions or a new axis, on two arrays with the same values. -/
theorem item_twin {op : LazyOp} {c d : Content} (t : Twin c d) (hok : op.Ok c)
    (hr : ∀ a b, op ≠ .range a b) (hf : ∀ s, op ≠ .fields s) :
    ((c.getitem [op.item]).IsErr ∧ (d.getitem [op.item]).IsErr) ∨
      ∃ c' d', c.getitem [op.item] = ok (.array c') ∧ d.getitem [op.item] = ok (.array d') ∧
        Twin c' d' ∧
        (∀ start stop step, op = .steps start stop step → step ≠ 0 ∧
          c'.len = (pySlicePositions c.len start stop step).length) ∧
        (∀ idx, op = .positions idx → c'.len = idx.length) ∧
        (op = .newaxis → c'.len = 1) := by
  cases op with
  | range a b => exact absurd rfl (hr a b)
  | fields s => exact absurd rfl (hf s)
  | newaxis =>
    obtain ⟨c', d', h1, h2, h3, h4⟩ := t.newaxis
    exact .inr ⟨c', d', h1, h2, h3, fun _ _ _ h => (by cases h), fun _ h => (by cases h), fun _ => h4⟩
  | steps start stop step =>
    obtain ⟨k1, k2, k3, k4⟩ := hok
    by_cases h0 : step = 0
    · subst h0
      exact .inl ⟨steps_raises c t.good rfl, steps_raises d t.good' rfl⟩
    · have hs := t.small
      obtain ⟨c', d', h1, h2, h3, h4⟩ := t.takes (steps_takes (n := c.len) k1 k2 h0 k4)
        (by have := pySlicePositions_le (n := c.len) (start := start) (stop := stop) h0; omega)
      refine .inr ⟨c', d', h1, h2, h3, fun _ _ _ h => ?_, fun _ h => (by cases h), fun h => (by cases h)⟩
      cases h
      exact ⟨h0, h4⟩
  | positions idx =>
    rcases positions_takes (n := c.len) (idx := idx) with h | ⟨xs, hx, h⟩
    · exact .inl ⟨h c t.good rfl, h d t.good' t.len.symm⟩
    · have hs : ((idx.length : Nat) : Int) < kSliceNone := hok
      obtain ⟨c', d', h1, h2, h3, h4⟩ := t.takes h (by rw [hx]; exact hs)
      refine .inr ⟨c', d', h1, h2, h3, fun _ _ _ h => (by cases h), fun _ h => ?_, fun h => (by cases h)⟩
      cases h
      rw [h4, hx]

/-! ### Agreement -/

/-- The result of an operation on a lazy array agrees with that on the array itself. -/
def Agrees (arrays : List Virtual) (same : Content → Content → Bool) (x : R Content) :
    R Out → Prop
  | ok (.real l) => ∃ d, x = ok d ∧ Twin d l
  | ok (.lazy v) => From arrays v ∧
      ((∃ d l, x = ok d ∧ v.generated same = ok l ∧ Twin d l ∧ (∀ n, v.length = some n → n = l.len) ∧
          ∀ f, v.form = some f → f = l.form) ∨
        (x.IsErr ∧ (v.generated same).IsErr ∧ v.form = none))
  | err _ => x.IsErr
  | ub => False

/-- The two results of an operation on arrays that are there. -/
def Both (x y : R Content) : Prop :=
  (∃ d l, x = ok d ∧ y = ok l ∧ Twin d l) ∨ (x.IsErr ∧ y.IsErr)

theorem Both.real {arrays : List Virtual} {same : Content → Content → Bool} {x y : R Content}
    (h : Both x y) : Agrees arrays same x (y >>= fun c => ok (.real c)) := by
  rcases h with ⟨d, l, rfl, rfl, t⟩ | ⟨hx, s, rfl⟩
  · exact ⟨d, rfl, t⟩
  · exact hx

theorem range_both {c d : Content} (t : Twin c d) {start stop : Option Int}
    (h1 : GoodArg start) (h2 : GoodArg stop) :
    Both (c.getitemRange (sliceArg start) (sliceArg stop))
      (d.getitemRange (sliceArg start) (sliceArg stop)) := by
  obtain ⟨a, b, q1, q2, q3⟩ := range_bounds c.len h1 h2
  obtain ⟨c', d', r1, r2, r3, _⟩ := t.range q1 q2
  rw [getitemRange_bounds q3 rfl, getitemRange_bounds q3 t.len.symm]
  exact .inl ⟨c', d', r1, r2, r3⟩

theorem item_both {op : LazyOp} {c d : Content} (t : Twin c d) (hok : op.Ok c)
    (hr : ∀ a b, op ≠ .range a b) (hf : ∀ s, op ≠ .fields s) :
    Both (c.getitem [op.item] >>= Item.asArray) (d.getitem [op.item] >>= Item.asArray) := by
  rcases item_twin t hok hr hf with ⟨⟨s, h1⟩, ⟨s', h2⟩⟩ | ⟨c', d', h1, h2, h3, _⟩
  · exact .inr ⟨⟨s, by rw [h1]; rfl⟩, ⟨s', by rw [h2]; rfl⟩⟩
  · exact .inl ⟨c', d', by rw [h1]; rfl, by rw [h2]; rfl, h3⟩

theorem direct_item {op : LazyOp} (same : Content → Content → Bool) (c : Content)
    (hr : ∀ a b, op ≠ .range a b) (hf : ∀ s, op ≠ .fields s) :
    op.direct same c = c.getitem [op.item] >>= Item.asArray := by
  cases op with
  | range a b => exact absurd rfl (hr a b)
  | fields s => exact absurd rfl (hf s)
  | _ => rfl

theorem onVirtual_item {op : LazyOp} (e : Env) (v : Virtual)
    (hr : ∀ a b, op ≠ .range a b) (hf : ∀ s, op ≠ .fields s) :
    op.onVirtual e v = v.getitemItem e op.item := by
  cases op with
  | range a b => exact absurd rfl (hr a b)
  | fields s => exact absurd rfl (hf s)
  | _ => rfl

theorem direct_both {op : LazyOp} {c d : Content} (t : Twin c d) (hok : op.Ok c)
    (same : Content → Content → Bool) : Both (op.direct same c) (op.direct same d) := by
  cases op with
  | range start stop => exact range_both t hok.1 hok.2
  | fields s =>
    obtain ⟨c', d', h1, h2, h3, _⟩ := t.fields same hok.1 hok.2
    exact .inl ⟨c', d', h1, h2, h3⟩
  | steps start stop step => exact item_both t hok (by simp) (by simp)
  | positions idx => exact item_both t hok (by simp) (by simp)
  | newaxis => exact item_both t hok (by simp) (by simp)

/-- The generator of a slice with one item that is not a plain range. -/
theorem generate_item {op : LazyOp} {same : Content → Content → Bool} {l : Content}
    (hok : op.Ok l) (hr : ∀ a b, op ≠ .range a b) (hf : ∀ s, op ≠ .fields s) :
    (Cut.item op.item).generate same l = l.getitem [op.item] >>= Item.asArray := by
  cases op with
  | range a b => exact absurd rfl (hr a b)
  | fields s => exact absurd rfl (hf s)
  | steps start stop step =>
    obtain ⟨_, _, k3, k4⟩ := hok
    simp only [Cut.generate, LazyOp.item, SliceItem.constructed, if_neg k4]
    split
    · rename_i h
      simp only [SliceItem.range.injEq] at h
      exact absurd h.2.2 k3
    · rfl
  | _ => rfl

section
variable {arrays : List Virtual}

/-- Something that raises agrees with anything that raises. -/
theorem agrees_err {same : Content → Content → Bool} {x : R Content} (h : x.IsErr) (s : String) :
    Agrees arrays same x (err s) := h

/-- A lazy array that agrees with `d`. -/
structure Stands (arrays : List Virtual) (same : Content → Content → Bool) (d : Content)
    (v : Virtual) (l : Content) : Prop where
  made : From arrays v
  gen : v.generated same = ok l
  twin : Twin d l
  length : ∀ n, v.length = some n → n = l.len
  form : ∀ f, v.form = some f → f = l.form

theorem Stands.agrees {same : Content → Content → Bool} {d l : Content} {v : Virtual}
    (h : Stands arrays same d v l) : Agrees arrays same (ok d) (ok (.lazy v)) :=
  ⟨h.made, .inl ⟨d, l, rfl, h.gen, h.twin, h.length, h.form⟩⟩

/-- A lazy slice of a lazy array that stands for an array. -/
theorem Stands.slice {same : Content → Content → Bool} {d l d' l' : Content} {v : Virtual}
    (h : Stands arrays same d v l) {form : Option Form} {length : Option Nat} {cut : Cut}
    (hc : cut.generate same l = ok l') (t : Twin d' l') (hl : ∀ n, length = some n → n = l'.len)
    (hf : ∀ f, form = some f → f = l'.form) :
    Stands arrays same d' (.slice form length v cut) l' := by
  refine ⟨h.made, ?_, t, hl, hf⟩
  simp only [Virtual.generated]
  rw [h.gen, bind_ok, hc, bind_ok]
  exact check_ok_of hl hf t.symm.settled

theorem Stands.known {same : Content → Content → Bool} {d l : Content} {v : Virtual}
    (h : Stands arrays same d v l) (e : Env) (he : e.same = same) :
    Runs arrays (v.knownForm e) (fun q => ∃ fo, q = ok fo ∧ ∀ f, fo = some f → f = l.form) := by
  refine (knownForm_runs e v).mono fun q hq => ?_
  rcases hq with hq | ⟨x, _, hq, hx⟩
  · exact ⟨_, hq, h.form⟩
  · rw [he, h.gen, ok.injEq] at hx
    subst hx
    exact ⟨_, hq, fun f hf => by simpa using hf.symm⟩

theorem Stands.peek {e : Env} {d l : Content} {v : Virtual} (hk : SeparateKeys arrays)
    (h : Stands arrays e.same d v l) :
    Runs arrays (v.peek e) (fun q => q = ok none ∨ q = ok (some l)) := by
  refine (peek_runs hk e h.made).mono fun q hq => ?_
  rcases hq with hq | ⟨x, hq, hx⟩
  · exact .inl hq
  · rw [h.gen, ok.injEq] at hx
    subst hx
    exact .inr hq

theorem Stands.read {e : Env} {d l : Content} {v : Virtual} (hk : SeparateKeys arrays)
    (h : Stands arrays e.same d v l) {f : Content → R Content} {x : R Content}
    (hb : Both x (f l)) :
    Runs arrays ((v.array e).andThen fun a => Act.lift (f a >>= fun c => ok (.real c)))
      (Agrees arrays e.same x) := by
  refine (array_runs hk e v h.made).andThen (fun a ha => Runs.lift ?_) (fun s hs => ?_) (fun hs => ?_)
  · rw [h.gen, ok.injEq] at ha
    subst ha
    exact hb.real
  · rw [h.gen] at hs; cases hs
  · rw [h.gen] at hs; cases hs

theorem Form.getitemRange_settled {f : Form} (h : f.Settled) : f.getitemRange = f := by
  cases f <;> first | rfl | exact h.elim

theorem Stands.nowrap {e : Env} {d l d' l' : Content} {v : Virtual} (hk : SeparateKeys arrays)
    (h : Stands arrays e.same d v l) {a b : Nat} (hab : a ≤ b) (hb : b ≤ l.len)
    (hl : l.range a b = ok l') (t : Twin d' l') (hll : l'.len = b - a) :
    Runs arrays (v.getitemRangeNowrap e a b) (Agrees arrays e.same (ok d')) := by
  unfold Virtual.getitemRangeNowrap
  refine (h.peek hk).andThen (fun found hf => ?_) (fun s hs => ?_) (fun hs => ?_)
  · rcases hf with hf | hf <;> simp only [ok.injEq] at hf <;> subst hf
    · simp only
      split
      · rename_i hw
        obtain ⟨w1, w2, w3⟩ := hw
        cases hn : v.length with
        | none => rw [hn] at w1; simp at w1
        | some n =>
          rw [hn] at w3
          have := h.length n hn
          have ha : a = 0 := by omega
          have hb' : b = l.len := by simp at w3; omega
          subst ha hb'
          refine Runs.lift (Stands.agrees (l := l) ⟨h.made, h.gen, ?_, h.length, h.form⟩)
          obtain ⟨l'', q1, q2⟩ := (Twin.whole (h.twin.symm.trans h.twin))
          rw [Nat.cast_zero, q1, ok.injEq] at hl
          subst hl
          exact t.trans q2.symm
      · refine (h.known e rfl).andThen (fun fo hfo => Runs.lift ?_) (fun s hs => ?_) (fun hs => ?_)
        · obtain ⟨fo', hfo', hform⟩ := hfo
          simp only [ok.injEq] at hfo'
          subst hfo'
          refine Stands.agrees (l := l') (h.slice ?_ t ?_ ?_)
          · simp only [Cut.generate, SliceItem.constructed]
            rw [if_neg (by decide)]
            simp only [sliceArg]
            rw [range_again hab hb h.twin.symm.small rfl]
            exact hl
          · intro n hn
            simp only [Option.some.injEq] at hn
            rw [← hn, hll]
            omega
          · intro f hf
            cases fo with
            | none => simp at hf
            | some g =>
              have := hform g rfl
              subst this
              have hs := h.twin.symm.settled
              simp only [Option.map_some, Option.some.injEq] at hf
              rw [Form.getitemRange_settled hs] at hf
              rw [← hf, range_form hs hl]
        · obtain ⟨_, hs, _⟩ := hs; cases hs
        · obtain ⟨_, hs, _⟩ := hs; cases hs
    · exact Runs.lift (Both.real (.inl ⟨d', l', rfl, hl, t⟩))
  · rcases hs with hs | hs <;> cases hs
  · rcases hs with hs | hs <;> cases hs

theorem Stands.on {e : Env} {d l : Content} {v : Virtual} (hk : SeparateKeys arrays)
    (h : Stands arrays e.same d v l) {op : LazyOp} (hok : op.Ok d) :
    Runs arrays (op.onVirtual e v) (Agrees arrays e.same (op.direct e.same d)) := by
  have hokl := hok.twin h.twin
  have hitem : (∀ a b, op ≠ .range a b) → (∀ s, op ≠ .fields s) →
      Runs arrays (op.onVirtual e v) (Agrees arrays e.same (op.direct e.same d)) := by
    intro hr hf
    rw [direct_item _ _ hr hf, onVirtual_item _ _ hr hf]
    have hboth := item_both h.twin hok hr hf
    have hlazy : ∀ n, (∀ d', d.getitem [op.item] = ok (.array d') → n = d'.len) →
        Agrees arrays e.same (d.getitem [op.item] >>= Item.asArray)
          (ok (.lazy (.slice none (some n) v (.item op.item)))) := by
      intro n hn
      rcases item_twin h.twin hok hr hf with ⟨⟨s, h1⟩, ⟨s', h2⟩⟩ | ⟨d', l', h1, h2, h3, _⟩
      · refine ⟨h.made, .inr ⟨⟨s, by rw [h1]; rfl⟩, ⟨s', ?_⟩, rfl⟩⟩
        simp only [Virtual.generated]
        rw [h.gen, bind_ok, generate_item hokl hr hf, h2]
        rfl
      · rw [h1]
        refine Stands.agrees (l := l') (h.slice ?_ h3 ?_ (fun f hf => by cases hf))
        · rw [generate_item hokl hr hf, h2]; rfl
        · intro m hm
          simp only [Option.some.injEq] at hm
          rw [← hm, hn d' h1, h3.len]
    unfold Virtual.getitemItem
    refine (h.peek hk).andThen (fun found hfd => ?_) (fun s hs => ?_) (fun hs => ?_)
    · rcases hfd with hfd | hfd <;> simp only [ok.injEq] at hfd <;> subst hfd
      · simp only
        have hlen := item_twin h.twin hok hr hf
        cases op with
        | range a b => exact absurd rfl (hr a b)
        | fields s => exact absurd rfl (hf s)
        | newaxis =>
          refine Runs.lift (hlazy 1 fun d' hd' => ?_)
          rcases hlen with ⟨⟨s, h1⟩, _⟩ | ⟨d'', l', h1, h2, h3, h4, h5, h6⟩
          · rw [hd'] at h1; cases h1
          · rw [hd'] at h1
            simp only [ok.injEq, Item.array.injEq] at h1
            subst h1
            exact (h6 rfl).symm
        | positions idx =>
          refine Runs.lift (hlazy _ fun d' hd' => ?_)
          rcases hlen with ⟨⟨s, h1⟩, _⟩ | ⟨d'', l', h1, h2, h3, h4, h5, h6⟩
          · rw [hd'] at h1; cases h1
          · rw [hd'] at h1
            simp only [ok.injEq, Item.array.injEq] at h1
            subst h1
            exact (h5 _ rfl).symm
        | steps start stop step =>
          obtain ⟨k1, k2, k3, k4⟩ := hok
          simp only [LazyOp.item, SliceItem.constructed, if_neg k4]
          split
          · rename_i h0
            subst h0
            refine Runs.lift (agrees_err ?_ _)
            obtain ⟨s, hs⟩ := steps_raises (start := start) (stop := stop) d h.twin.good rfl
            exact ⟨s, by rw [hs]; rfl⟩
          · rename_i h0
            split
            · rename_i n hn
              refine Runs.lift (hlazy _ fun d' hd' => ?_)
              rcases hlen with ⟨⟨s, h1⟩, _⟩ | ⟨d'', l', h1, h2, h3, h4, h5, h6⟩
              · rw [hd'] at h1; cases h1
              · rw [hd'] at h1
                simp only [ok.injEq, Item.array.injEq] at h1
                subst h1
                have := pySlicePositions_length (n := n) k1 k2 h0
                rw [this, Int.toNat_natCast, (h4 _ _ _ rfl).2, h.twin.len, h.length n hn]
            · exact h.read hk hboth
      · exact Runs.lift hboth.real
    · rcases hs with hs | hs <;> cases hs
    · rcases hs with hs | hs <;> cases hs
  cases op with
  | steps start stop step => exact hitem (by simp) (by simp)
  | positions idx => exact hitem (by simp) (by simp)
  | newaxis => exact hitem (by simp) (by simp)
  | range start stop =>
    have hboth := range_both h.twin hok.1 hok.2
    simp only [LazyOp.onVirtual, LazyOp.direct, Virtual.getitemRange]
    split
    · exact h.read hk hboth
    · rename_i n hn
      refine (h.peek hk).andThen (fun found hf => ?_) (fun s hs => ?_) (fun hs => ?_)
      · rcases hf with hf | hf <;> simp only [ok.injEq] at hf <;> subst hf
        · have hnl := h.length n hn
          obtain ⟨a, b, q1, q2, q3⟩ := range_bounds n hok.1 hok.2
          simp only
          rw [q3]
          obtain ⟨d', l', r1, r2, r3, r4⟩ := h.twin.range q1 (by rw [h.twin.len, ← hnl]; exact q2)
          rw [getitemRange_bounds q3 (by rw [h.twin.len, hnl]), r1]
          exact h.nowrap hk q1 (by rw [← hnl]; exact q2) r2 r3 (by rw [← r3.len]; exact r4)
        · exact Runs.lift hboth.real
      · rcases hs with hs | hs <;> cases hs
      · rcases hs with hs | hs <;> cases hs
  | fields s =>
    obtain ⟨d', l', r1, r2, r3, r4⟩ := h.twin.fields e.same hok.1 hok.2
    simp only [LazyOp.onVirtual, LazyOp.direct, Virtual.getitemFields]
    rw [r1]
    have hll : l'.len = l.len := by rw [← r3.len, r4, h.twin.len]
    obtain ⟨l'', q1, q2⟩ := Twin.whole (r3.symm.trans r3)
    have hgen : (Cut.fields s).generate e.same l = ok l'' := by
      simp only [Cut.generate]
      rw [getitemSel_eq r2 hll, ← hll, q1]
      rfl
    have hslice : ∀ form, (∀ f, form = some f → f = l''.form) →
        Agrees arrays e.same (ok d') (ok (.lazy (.slice form v.length v (.fields s)))) := by
      intro form hform
      refine Stands.agrees (l := l'') (h.slice hgen (r3.trans q2) ?_ hform)
      intro n hn
      rw [h.length n hn, ← q2.len, hll]
    refine (h.peek hk).andThen (fun found hf => ?_) (fun s hs => ?_) (fun hs => ?_)
    · rcases hf with hf | hf <;> simp only [ok.injEq] at hf <;> subst hf
      · refine (h.known e rfl).andThen (fun fo hfo => ?_) (fun s hs => ?_) (fun hs => ?_)
        · obtain ⟨fo', hfo', hform⟩ := hfo
          simp only [ok.injEq] at hfo'
          subst hfo'
          cases fo with
          | none => exact Runs.lift (hslice none (by simp))
          | some f =>
            have := hform f rfl
            subst this
            obtain ⟨g1, _⟩ := getitemFields_form hok.2 (hasFields_form hok.1 h.twin.form)
              h.twin.symm.settled r2
            simp only
            rw [g1, bind_ok]
            refine Runs.lift (hslice _ fun f hf => ?_)
            simp only [Option.some.injEq] at hf
            rw [← hf, q2.form]
        · obtain ⟨_, hs, _⟩ := hs; cases hs
        · obtain ⟨_, hs, _⟩ := hs; cases hs
      · simp only
        rw [r2]
        exact Runs.lift ⟨d', rfl, r3⟩
    · rcases hs with hs | hs <;> cases hs
    · rcases hs with hs | hs <;> cases hs

/-- A lazy array that raises when it is read. -/
structure Raising (arrays : List Virtual) (same : Content → Content → Bool) (v : Virtual) : Prop where
  made : From arrays v
  gen : (v.generated same).IsErr
  form : v.form = none

theorem Raising.slice {same : Content → Content → Bool} {v : Virtual}
    (h : Raising arrays same v) (length : Option Nat) (cut : Cut) {x : R Content} (hx : x.IsErr) :
    Agrees arrays same x (ok (.lazy (.slice none length v cut))) := by
  refine ⟨h.made, .inr ⟨hx, ?_, rfl⟩⟩
  obtain ⟨s, hs⟩ := h.gen
  exact ⟨s, by simp only [Virtual.generated]; rw [hs]; rfl⟩

theorem Raising.peek {e : Env} {v : Virtual} (hk : SeparateKeys arrays)
    (h : Raising arrays e.same v) : Runs arrays (v.peek e) (fun q => q = ok none) := by
  refine (peek_runs hk e h.made).mono fun q hq => ?_
  obtain ⟨s, hs⟩ := h.gen
  rcases hq with hq | ⟨x, _, hx⟩
  · exact hq
  · rw [hs] at hx; cases hx

theorem Raising.known {e : Env} {v : Virtual} (h : Raising arrays e.same v) :
    Runs arrays (v.knownForm e) (fun q => q = ok none) := by
  refine (knownForm_runs e v).mono fun q hq => ?_
  obtain ⟨s, hs⟩ := h.gen
  rcases hq with hq | ⟨x, _, _, hx⟩
  · rw [hq, h.form]
  · rw [hs] at hx; cases hx

theorem Raising.read {e : Env} {v : Virtual} (hk : SeparateKeys arrays)
    (h : Raising arrays e.same v) {f : Content → R Content} {x : R Content} (hx : x.IsErr) :
    Runs arrays ((v.array e).andThen fun a => Act.lift (f a >>= fun c => ok (.real c)))
      (Agrees arrays e.same x) := by
  obtain ⟨s, hs⟩ := h.gen
  refine (array_runs hk e v h.made).andThen (fun a ha => ?_) (fun s _ => agrees_err hx s)
    (fun hu => ?_)
  · rw [hs] at ha; cases ha
  · rw [hs] at hu; cases hu

theorem Raising.on {e : Env} {v : Virtual} (hk : SeparateKeys arrays)
    (h : Raising arrays e.same v) (op : LazyOp) {x : R Content} (hx : x.IsErr) :
    Runs arrays (op.onVirtual e v) (Agrees arrays e.same x) := by
  have none_of : ∀ {q : Option Content}, (ok q : R (Option Content)) = ok none → q = none :=
    fun h => by simpa using h
  have hitem : ∀ it, Runs arrays (v.getitemItem e it) (Agrees arrays e.same x) := by
    intro it
    unfold Virtual.getitemItem
    refine (h.peek hk).andThen (fun found hf => ?_) (fun s hs => by cases hs) (fun hs => by cases hs)
    simp only [ok.injEq] at hf
    subst hf
    simp only
    split
    · split
      · exact Runs.lift (agrees_err hx _)
      · split
        · exact Runs.lift (h.slice _ _ hx)
        · exact h.read hk hx (f := fun a => a.getitem [it] >>= Item.asArray)
    · exact Runs.lift (h.slice _ _ hx)
    · exact Runs.lift (h.slice _ _ hx)
    · exact h.read hk hx (f := fun a => a.getitem [it] >>= Item.asArray)
  cases op with
  | steps start stop step => exact hitem _
  | positions idx => exact hitem _
  | newaxis => exact hitem _
  | range start stop =>
    simp only [LazyOp.onVirtual, Virtual.getitemRange]
    split
    · exact h.read hk hx
    · refine (h.peek hk).andThen (fun found hf => ?_) (fun s hs => by cases hs)
        (fun hs => by cases hs)
      simp only [ok.injEq] at hf
      subst hf
      simp only [Virtual.getitemRangeNowrap]
      refine (h.peek hk).andThen (fun found hf => ?_) (fun s hs => by cases hs)
        (fun hs => by cases hs)
      simp only [ok.injEq] at hf
      subst hf
      simp only
      split
      · exact Runs.lift ⟨h.made, .inr ⟨hx, h.gen, h.form⟩⟩
      · refine h.known.andThen (fun fo hf => ?_) (fun s hs => by cases hs) (fun hs => by cases hs)
        simp only [ok.injEq] at hf
        subst hf
        exact Runs.lift (h.slice _ _ hx)
  | fields s =>
    simp only [LazyOp.onVirtual, Virtual.getitemFields]
    refine (h.peek hk).andThen (fun found hf => ?_) (fun s hs => by cases hs) (fun hs => by cases hs)
    simp only [ok.injEq] at hf
    subst hf
    simp only
    refine h.known.andThen (fun fo hf => ?_) (fun s hs => by cases hs) (fun hs => by cases hs)
    simp only [ok.injEq] at hf
    subst hf
    exact Runs.lift (h.slice _ _ hx)

/-- One operation. -/
theorem agrees_on {e : Env} (hk : SeparateKeys arrays) {x : R Content} {out : Out}
    (h : Agrees arrays e.same x (ok out)) {op : LazyOp} (hok : ∀ d, x = ok d → op.Ok d) :
    Runs arrays (op.on e out) (Agrees arrays e.same (x >>= fun c => op.direct e.same c)) := by
  cases out with
  | real l =>
    obtain ⟨d, rfl, t⟩ := h
    exact Runs.lift (direct_both t (hok d rfl) e.same).real
  | lazy v =>
    obtain ⟨hv, ⟨d, l, rfl, h1, h2, h3, h4⟩ | ⟨⟨s, rfl⟩, h2, h3⟩⟩ := h
    · exact Stands.on hk ⟨hv, h1, h2, h3, h4⟩ (hok d rfl)
    · exact Raising.on hk ⟨hv, h2, h3⟩ op ⟨s, rfl⟩

/-- Reading the result. -/
theorem agrees_read {e : Env} (hk : SeparateKeys arrays) {x : R Content} {out : Out}
    (h : Agrees arrays e.same x (ok out)) : Runs arrays (out.read e) (Both x) := by
  cases out with
  | real l =>
    obtain ⟨d, rfl, t⟩ := h
    exact Runs.lift (.inl ⟨d, l, rfl, rfl, t⟩)
  | lazy v =>
    obtain ⟨hv, ⟨d, l, rfl, h1, h2, h3, h4⟩ | ⟨hx, h2, h3⟩⟩ := h
    · exact (array_runs hk e v hv).mono fun q hq => .inl ⟨d, l, rfl, by rw [hq, h1], h2⟩
    · exact (array_runs hk e v hv).mono fun q hq => .inr ⟨hx, by rw [hq]; exact h2⟩

end

end Awk
