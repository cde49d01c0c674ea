import Verif.Lemmas.BuilderSnapshot
/-
Sequences of commands, the commands that spell out Python objects, and `clear`.
-/

namespace Awk
open R Spec
open Content (pk uk UOk)

namespace Builder

variable {utf8 : Bool} {kinds : List Kind} {cap : Nat → Nat}

/-- Every sequence of commands does what the specification says. -/
theorem Rep.run {b : Builder} {done : List Val} {part : Part} (h : Rep utf8 kinds b done part)
    (hmax : kinds.length ≤ 127) {ops : List Op} (hp : ∀ op ∈ ops, Plain utf8 kinds op) :
    (run cap b ops).Tot (IsOk (feedAll done part ops) ∧ NarrowAll part ops) (fun b' =>
      ∃ done' part', feedAll done part ops = ok (done', part') ∧ Rep utf8 kinds b' done' part') := by
  induction ops generalizing b done part with
  | nil => exact .ok ⟨done, part, rfl, h⟩
  | cons op ops ih =>
    simp only [Builder.run]
    refine ((h.sim hmax op (hp op List.mem_cons_self)).mono (fun hy => ?_) (fun _ h => h)).bind
      (fun b' hb' => ?_)
    · obtain ⟨⟨r, hr⟩, hn⟩ := hy
      simp only [feedAll] at hr
      obtain ⟨out, ho, _⟩ := bind_eq_ok.mp hr
      exact ⟨⟨out, ho⟩, hn.1⟩
    · obtain ⟨out, h1, h2, _⟩ := hb'
      have hp' : ∀ op ∈ ops, Plain utf8 kinds op := fun o ho => hp o (List.mem_cons_of_mem _ ho)
      simp only [feedAll, NarrowAll, h1, bind_ok]
      cases out with
      | emit v =>
        exact (ih h2 hp').mono (fun hy => ⟨hy.1, hy.2.2⟩) (fun _ h => h)
      | stay p =>
        exact (ih h2.2 hp').mono (fun hy => ⟨hy.1, hy.2.2⟩) (fun _ h => h)

/-! ### Python objects -/

/-- The commands lead from one begun value to another. -/
inductive Reaches : Part → List Op → Part → Prop
  | nil (p : Part) : Reaches p [] p
  | cons {p p' p'' : Part} {op : Op} {ops : List Op} : Narrow op p → feed op p = ok (.stay p') →
      Reaches p' ops p'' → Reaches p (op :: ops) p''

/-- The commands complete the value, with the last of them. -/
inductive Spells : Part → List Op → Val → Prop
  | last {p : Part} {op : Op} {v : Val} : Narrow op p → feed op p = ok (.emit v) → Spells p [op] v
  | more {p p' : Part} {op : Op} {ops : List Op} {v : Val} : Narrow op p →
      feed op p = ok (.stay p') → Spells p' ops v → Spells p (op :: ops) v

theorem Reaches.trans {p q r : Part} {ops ops' : List Op} (h : Reaches p ops q)
    (h' : Reaches q ops' r) : Reaches p (ops ++ ops') r := by
  induction h with
  | nil => exact h'
  | cons h1 h2 _ ih => exact .cons h1 h2 (ih h')

theorem Reaches.spells {p q : Part} {ops ops' : List Op} {v : Val} (h : Reaches p ops q)
    (h' : Spells q ops' v) : Spells p (ops ++ ops') v := by
  induction h with
  | nil => exact h'
  | cons h1 h2 _ ih => exact .more h1 h2 (ih h')

theorem Spells.feedAll {p : Part} {ops rest : List Op} {v : Val} (h : Spells p ops v)
    (done : List Val) : feedAll done p (ops ++ rest) = feedAll (done ++ [v]) .idle rest ∧
      (NarrowAll .idle rest → NarrowAll p (ops ++ rest)) := by
  induction h with
  | last h1 h2 =>
    simp only [List.singleton_append, Spec.feedAll, NarrowAll, h2, bind_ok]
    exact ⟨trivial, fun h => ⟨h1, h⟩⟩
  | more h1 h2 _ ih =>
    simp only [List.cons_append, Spec.feedAll, NarrowAll, h2, bind_ok]
    exact ⟨ih.1, fun h => ⟨h1, ih.2 h⟩⟩

theorem feed_closing {op : Op} {out : Out} (h : feed op .idle = ok out) : isClosing op = false := by
  by_cases hn : op = .null
  · subst hn; rfl
  · exact (emit_data hn h).2

theorem not_closing {op : Op} {sub : Part} {out : Out} (h : feed op sub = ok out) :
    sub.isIdle = false ∨ isClosing op = false := by
  cases hs : sub.isIdle with
  | false => exact .inl rfl
  | true =>
    have := Part.eq_idle hs
    subst this
    exact .inr (feed_closing h)

theorem lift_list {items : List Val} {sub : Part} {ops : List Op} {v : Val} (h : Spells sub ops v) :
    Reaches (.list items sub) ops (.list (items ++ [v]) .idle) := by
  have key : ∀ {sub op out}, feed op sub = ok out → ¬ (sub.isIdle = true ∧ op = .endList) := by
    intro sub op out h
    rintro ⟨h1, rfl⟩
    rcases not_closing h with h | h
    · rw [h] at h1; cases h1
    · cases h
  induction h with
  | last h1 h2 => exact .cons h1 (by simp only [feed]; rw [if_neg (key h2), h2]; rfl) (.nil _)
  | more h1 h2 _ ih => exact .cons h1 (by simp only [feed]; rw [if_neg (key h2), h2]; rfl) ih

theorem lift_tuple {fields : List (List Val)} {i : Nat} {sub : Part} {ops : List Op} {v : Val}
    (h : Spells sub ops v) (hb : ∀ op ∈ ops, ∀ j, op = .index j → j < fields.length) :
    Reaches (.tuple fields (some i) sub) ops (.tuple (giveAt fields i v) (some i) .idle) := by
  have key : ∀ {sub op out}, feed op sub = ok out →
      sub.isIdle = false ∨ (∀ j, op ≠ .index j) ∧ op ≠ .endTuple := by
    intro sub op out h
    rcases not_closing h with h | h
    · exact .inl h
    · exact .inr ⟨(by rintro j rfl; cases h), (by rintro rfl; cases h)⟩
  induction h with
  | last h1 h2 =>
    refine .cons ⟨fun j hj _ => hb _ List.mem_cons_self j hj, h1⟩ ?_ (.nil _)
    rw [feed_tuple (key h2), h2]; rfl
  | more h1 h2 _ ih =>
    refine .cons ⟨fun j hj _ => hb _ List.mem_cons_self j hj, h1⟩ ?_
      (ih (fun op ho => hb op (List.mem_cons_of_mem _ ho)))
    rw [feed_tuple (key h2), h2]; rfl

theorem lift_record {fields : List (String × List Val)} {k : String} {sub : Part} {ops : List Op}
    {v : Val} (h : Spells sub ops v) :
    Reaches (.record fields (some k) sub) ops (.record (giveTo fields k v) (some k) .idle) := by
  have key : ∀ {sub op out}, feed op sub = ok out →
      sub.isIdle = false ∨ (∀ j, op ≠ .field j) ∧ op ≠ .endRecord := by
    intro sub op out h
    rcases not_closing h with h | h
    · exact .inl h
    · exact .inr ⟨(by rintro j rfl; cases h), (by rintro rfl; cases h)⟩
  induction h with
  | last h1 h2 =>
    refine .cons h1 ?_ (.nil _)
    rw [feed_record (key h2), h2]; rfl
  | more h1 h2 _ ih =>
    refine .cons h1 ?_ ih
    rw [feed_record (key h2), h2]; rfl

theorem vals_length (xs : List PyVal) : (PyVal.vals xs).length = xs.length := by
  induction xs with
  | nil => rfl
  | cons x xs ih => simp [PyVal.vals, ih]

theorem fieldVals_keys (xs : List (String × PyVal)) :
    (PyVal.fieldVals xs).map Prod.fst = xs.map Prod.fst := by
  induction xs with
  | nil => rfl
  | cons x xs ih => obtain ⟨k, x⟩ := x; simp [PyVal.fieldVals, ih]

theorem mapR_single (vs : List Val) : mapR single (vs.map (fun v => [v])) = ok vs := by
  induction vs with
  | nil => rfl
  | cons v vs ih => simp [mapR, ih, single]

theorem endFields_single (fs : List (String × Val)) :
    endFields (fs.map (fun f => (f.1, [f.2]))) = ok fs := by
  unfold endFields
  induction fs with
  | nil => rfl
  | cons f fs ih => simp only [List.map_cons, mapR, ih]; rfl

/-- The positions of fields that the commands choose are less than `b`. -/
def IndexLt (b : Option Nat) (ops : List Op) : Prop :=
  ∀ op ∈ ops, ∀ j, op = .index j → ∀ n, b = some n → j < n

theorem IndexLt.append {b : Option Nat} {ops ops' : List Op} (h : IndexLt b ops)
    (h' : IndexLt b ops') : IndexLt b (ops ++ ops') := by
  intro op ho
  rcases List.mem_append.mp ho with ho | ho
  · exact h op ho
  · exact h' op ho

theorem IndexLt.mono {n : Nat} {b : Option Nat} {ops : List Op} (h : IndexLt (some n) ops)
    (hb : ∀ m, b = some m → n ≤ m) : IndexLt b ops := by
  intro op ho j hj m hm
  have := h op ho j hj n rfl
  have := hb m hm
  omega

theorem indexLt_single {b : Option Nat} {op : Op} (h : ∀ j, op ≠ .index j) : IndexLt b [op] := by
  intro o ho j hj
  simp only [List.mem_singleton] at ho
  subst ho
  exact absurd hj (h j)

mutual
theorem commands_indexLt {lengths : List Nat} {b : Option Nat} : ∀ {x : PyVal},
    x.TupleLengths lengths b → IndexLt b x.commands
  | .none, _ => indexLt_single (by simp)
  | .bool _, _ => indexLt_single (by simp)
  | .int _, _ => indexLt_single (by simp)
  | .float _, _ => indexLt_single (by simp)
  | .str _, _ => indexLt_single (by simp)
  | .bytes _, _ => indexLt_single (by simp)
  | .list items, h => by
    simp only [PyVal.TupleLengths] at h
    exact ((indexLt_single (by simp)).append (listCommands_indexLt h)).append (indexLt_single (by simp))
  | .tuple items, h => by
    simp only [PyVal.TupleLengths] at h
    refine ((indexLt_single (by simp)).append
      ((tupleCommands_indexLt (i := 0) (by simp) h.2.2).mono h.2.1)).append (indexLt_single (by simp))
  | .dict items, h => by
    simp only [PyVal.TupleLengths] at h
    exact ((indexLt_single (by simp)).append (dictCommands_indexLt h)).append (indexLt_single (by simp))
theorem listCommands_indexLt {lengths : List Nat} {b : Option Nat} : ∀ {xs : List PyVal},
    PyVal.TupleLengthsAll lengths b xs → IndexLt b (PyVal.listCommands xs)
  | [], _ => by intro op ho; simp [PyVal.listCommands] at ho
  | x :: xs, h => by
    simp only [PyVal.TupleLengthsAll] at h
    exact (commands_indexLt h.1).append (listCommands_indexLt h.2)
theorem tupleCommands_indexLt {lengths : List Nat} {n i : Nat} : ∀ {xs : List PyVal},
    i + xs.length ≤ n → PyVal.TupleLengthsAll lengths (some n) xs →
    IndexLt (some n) (PyVal.tupleCommands i xs)
  | [], _, _ => by intro op ho; simp [PyVal.tupleCommands] at ho
  | x :: xs, hi, h => by
    simp only [PyVal.TupleLengthsAll] at h
    simp only [List.length_cons] at hi
    refine IndexLt.append (IndexLt.append ?_ (commands_indexLt h.1))
      (tupleCommands_indexLt (by omega) h.2)
    intro op ho j hj m hm
    simp only [List.mem_singleton] at ho
    subst ho
    cases hj
    cases hm
    omega
theorem dictCommands_indexLt {lengths : List Nat} {b : Option Nat} : ∀ {xs : List (String × PyVal)},
    PyVal.TupleLengthsFields lengths b xs → IndexLt b (PyVal.dictCommands xs)
  | [], _ => by intro op ho; simp [PyVal.dictCommands] at ho
  | (k, x) :: xs, h => by
    simp only [PyVal.TupleLengthsFields] at h
    exact ((indexLt_single (by simp)).append (commands_indexLt h.1)).append (dictCommands_indexLt h.2)
end

mutual
theorem commands_spell {lengths : List Nat} {b : Option Nat} : ∀ {x : PyVal}, x.DistinctKeys →
    x.TupleLengths lengths b → Spells .idle x.commands x.val
  | .none, _, _ => .last trivial rfl
  | .bool _, _, _ => .last trivial rfl
  | .int _, _, _ => .last trivial rfl
  | .float _, _, _ => .last trivial rfl
  | .str _, _, _ => .last trivial rfl
  | .bytes _, _, _ => .last trivial rfl
  | .list items, hd, h => by
    simp only [PyVal.TupleLengths] at h
    simp only [PyVal.DistinctKeys] at hd
    refine .more trivial rfl ((list_reaches hd h []).spells (.last trivial ?_))
    simp [feed, Part.isIdle, PyVal.val]
  | .tuple items, hd, h => by
    simp only [PyVal.TupleLengths] at h
    simp only [PyVal.DistinctKeys] at hd
    obtain ⟨cur, hr⟩ := tuple_reaches hd h.2.2 [] none (by simp)
    refine .more trivial rfl (hr.spells (.last ⟨by simp, trivial⟩ ?_))
    simp [feed, Part.isIdle, PyVal.val, mapR_single]
  | .dict items, hd, h => by
    simp only [PyVal.TupleLengths] at h
    simp only [PyVal.DistinctKeys] at hd
    obtain ⟨cur, hr⟩ := dict_reaches hd.2 h [] none (by simpa using hd.1)
    refine .more trivial rfl (hr.spells (.last trivial ?_))
    have := endFields_single (PyVal.fieldVals items)
    unfold endFields at this
    simp [feed, Part.isIdle, PyVal.val, this]
theorem list_reaches {lengths : List Nat} {b : Option Nat} : ∀ {xs : List PyVal},
    PyVal.DistinctKeysAll xs → PyVal.TupleLengthsAll lengths b xs → ∀ done : List Val,
    Reaches (.list done .idle) (PyVal.listCommands xs) (.list (done ++ PyVal.vals xs) .idle)
  | [], _, _, done => by simpa [PyVal.listCommands, PyVal.vals] using Reaches.nil _
  | x :: xs, hd, h, done => by
    simp only [PyVal.TupleLengthsAll] at h
    simp only [PyVal.DistinctKeysAll] at hd
    have := (lift_list (items := done) (commands_spell hd.1 h.1)).trans
      (list_reaches hd.2 h.2 (done ++ [x.val]))
    simpa [PyVal.listCommands, PyVal.vals] using this
theorem tuple_reaches {lengths : List Nat} {n : Nat} : ∀ {xs : List PyVal},
    PyVal.DistinctKeysAll xs → PyVal.TupleLengthsAll lengths (some n) xs → ∀ (done : List Val)
    (cur : Option Nat), done.length + xs.length = n →
    ∃ cur', Reaches (.tuple (done.map (fun v => [v]) ++ List.replicate xs.length []) cur .idle)
      (PyVal.tupleCommands done.length xs)
      (.tuple ((done ++ PyVal.vals xs).map (fun v => [v])) cur' .idle)
  | [], _, _, done, cur, _ => ⟨cur, by simpa [PyVal.tupleCommands, PyVal.vals] using Reaches.nil _⟩
  | x :: xs, hd, h, done, cur, hn => by
    simp only [PyVal.TupleLengthsAll] at h
    simp only [PyVal.DistinctKeysAll] at hd
    simp only [List.length_cons] at hn
    obtain ⟨cur', hr⟩ := tuple_reaches hd.2 h.2 (done ++ [x.val]) (some done.length)
      (by simp only [List.length_append, List.length_singleton]; omega)
    refine ⟨cur', ?_⟩
    have h1 := lift_tuple (fields := done.map (fun v => [v]) ++ List.replicate (xs.length + 1) [])
      (i := done.length) (commands_spell hd.1 h.1) (by
        intro op ho j hj
        have := commands_indexLt h.1 op ho j hj n rfl
        simp only [List.length_append, List.length_map, List.length_replicate]
        omega)
    have hg : giveAt (done.map (fun v => [v]) ++ List.replicate (xs.length + 1) []) done.length x.val
        = (done ++ [x.val]).map (fun v => [v]) ++ List.replicate xs.length [] := by
      unfold giveAt
      have hm : ∀ (a b : List (List Val)) (f : List Val → List Val) (x : List Val),
          (a ++ x :: b).modify a.length f = a ++ f x :: b := by
        intro a b f x
        induction a with
        | nil => rfl
        | cons y a ih => simpa using ih
      rw [List.replicate_succ]
      have := hm (done.map (fun v => [v])) (List.replicate xs.length []) (fun vs => vs ++ [x.val]) []
      rw [List.length_map] at this
      rw [this]
      simp
    rw [hg] at h1
    have h2 := h1.trans (by simpa using hr)
    refine .cons ⟨by simp [Part.isIdle], trivial⟩ ?_ (by simpa [PyVal.vals] using h2)
    simp only [feed, Part.isIdle, if_true, List.length_cons]
    rw [if_pos ⟨by omega, by simp only [List.length_append, List.length_map, List.length_replicate]; omega⟩]
    simp
theorem dict_reaches {lengths : List Nat} {b : Option Nat} : ∀ {xs : List (String × PyVal)},
    PyVal.DistinctKeysFields xs → PyVal.TupleLengthsFields lengths b xs →
    ∀ (done : List (String × Val)) (cur : Option String),
    (done.map Prod.fst ++ xs.map Prod.fst).Nodup →
    ∃ cur', Reaches (.record (done.map (fun f => (f.1, [f.2]))) cur .idle) (PyVal.dictCommands xs)
      (.record ((done ++ PyVal.fieldVals xs).map (fun f => (f.1, [f.2]))) cur' .idle)
  | [], _, _, done, cur, _ => ⟨cur, by simpa [PyVal.dictCommands, PyVal.fieldVals] using Reaches.nil _⟩
  | (k, x) :: xs, hd, h, done, cur, hn => by
    simp only [PyVal.TupleLengthsFields] at h
    simp only [PyVal.DistinctKeysFields] at hd
    obtain ⟨cur', hr⟩ := dict_reaches hd.2 h.2 (done ++ [(k, x.val)]) (some k) (by simpa using hn)
    refine ⟨cur', ?_⟩
    have hk : k ∉ (done.map (fun f => (f.1, [f.2]))).map Prod.fst := by
      rw [List.nodup_append] at hn
      have := hn.2.2
      simp only [List.map_map]
      intro hk
      obtain ⟨f, hf, hfk⟩ := List.mem_map.mp hk
      simp only [Function.comp] at hfk
      exact this k (List.mem_map.mpr ⟨f, hf, hfk⟩) k (by simp) rfl
    have h1 := lift_record (fields := done.map (fun f => (f.1, [f.2])) ++ [(k, [])])
      (k := k) (commands_spell hd.1 h.1)
    have hg : giveTo (done.map (fun f => (f.1, [f.2])) ++ [(k, [])]) k x.val
        = (done ++ [(k, x.val)]).map (fun f => (f.1, [f.2])) := by
      unfold giveTo
      rw [List.map_append, List.map_append]
      congr 1
      · conv_rhs => rw [← List.map_id (done.map _)]
        apply List.map_congr_left
        intro f hf
        have : f.1 ≠ k := by
          rintro rfl
          exact hk (List.mem_map.mpr ⟨f, hf, rfl⟩)
        rw [if_neg this]; rfl
      · simp
    rw [hg] at h1
    have h2 := h1.trans hr
    refine .cons trivial ?_ (by simpa [PyVal.fieldVals] using h2)
    simp only [feed, Part.isIdle, if_true, withKey]
    rw [if_neg hk]
end

/-- The kinds of Python objects, with tuples of these lengths. -/
def pyKinds (utf8 : Bool) (lengths : List Nat) : List Kind :=
  [.bool, .int, .float, .str utf8, .list, .record none] ++ lengths.map .tuple

theorem plain_of {op : Op} (h1 : ∀ k, opKind op = some k → k ∈ kinds)
    (h2 : ∀ re im, op ≠ .complex re im) (h3 : ∀ u codes, op = .str u codes → u = utf8)
    (h4 : ∀ i, op = .index i → 0 ≤ i) (h5 : op ≠ .beginRecord (some "")) :
    ∀ o ∈ [op], Plain utf8 kinds o := by
  intro o ho
  simp only [List.mem_singleton] at ho
  subst ho
  exact ⟨h1, h2, h3, h4, h5⟩

theorem plain_append {ops ops' : List Op} (h : ∀ op ∈ ops, Plain utf8 kinds op)
    (h' : ∀ op ∈ ops', Plain utf8 kinds op) : ∀ op ∈ ops ++ ops', Plain utf8 kinds op := by
  intro op ho
  rcases List.mem_append.mp ho with ho | ho
  · exact h op ho
  · exact h' op ho

mutual
theorem commands_plain {lengths : List Nat} {b : Option Nat} : ∀ {x : PyVal}, x.OneEncoding utf8 →
    x.TupleLengths lengths b → ∀ op ∈ x.commands, Plain utf8 (pyKinds utf8 lengths) op
  | .none, _, _ => plain_of (by simp [opKind]) (by simp) (by simp) (by simp) (by simp)
  | .bool _, _, _ => plain_of (by simp [opKind, pyKinds]) (by simp) (by simp) (by simp) (by simp)
  | .int _, _, _ => plain_of (by simp [opKind, pyKinds]) (by simp) (by simp) (by simp) (by simp)
  | .float _, _, _ => plain_of (by simp [opKind, pyKinds]) (by simp) (by simp) (by simp) (by simp)
  | .str _, he, _ => by
    simp only [PyVal.OneEncoding] at he
    subst he
    exact plain_of (by simp [opKind, pyKinds]) (by simp) (by simp) (by simp) (by simp)
  | .bytes _, he, _ => by
    simp only [PyVal.OneEncoding] at he
    subst he
    exact plain_of (by simp [opKind, pyKinds]) (by simp) (by simp) (by simp) (by simp)
  | .list items, he, h => by
    simp only [PyVal.TupleLengths] at h
    simp only [PyVal.OneEncoding] at he
    exact plain_append (plain_append
      (plain_of (by simp [opKind, pyKinds]) (by simp) (by simp) (by simp) (by simp))
      (listCommands_plain he h))
      (plain_of (by simp [opKind]) (by simp) (by simp) (by simp) (by simp))
  | .tuple items, he, h => by
    simp only [PyVal.TupleLengths] at h
    simp only [PyVal.OneEncoding] at he
    exact plain_append (plain_append
      (plain_of (by simpa [opKind, pyKinds] using h.1) (by simp) (by simp) (by simp) (by simp))
      (tupleCommands_plain he h.2.2 0))
      (plain_of (by simp [opKind]) (by simp) (by simp) (by simp) (by simp))
  | .dict items, he, h => by
    simp only [PyVal.TupleLengths] at h
    simp only [PyVal.OneEncoding] at he
    exact plain_append (plain_append
      (plain_of (by simp [opKind, pyKinds]) (by simp) (by simp) (by simp) (by simp))
      (dictCommands_plain he h))
      (plain_of (by simp [opKind]) (by simp) (by simp) (by simp) (by simp))
theorem listCommands_plain {lengths : List Nat} {b : Option Nat} : ∀ {xs : List PyVal},
    PyVal.OneEncodingAll utf8 xs → PyVal.TupleLengthsAll lengths b xs →
    ∀ op ∈ PyVal.listCommands xs, Plain utf8 (pyKinds utf8 lengths) op
  | [], _, _ => by simp [PyVal.listCommands]
  | x :: xs, he, h => by
    simp only [PyVal.TupleLengthsAll] at h
    simp only [PyVal.OneEncodingAll] at he
    exact plain_append (commands_plain he.1 h.1) (listCommands_plain he.2 h.2)
theorem tupleCommands_plain {lengths : List Nat} {b : Option Nat} : ∀ {xs : List PyVal},
    PyVal.OneEncodingAll utf8 xs → PyVal.TupleLengthsAll lengths b xs → ∀ i : Nat,
    ∀ op ∈ PyVal.tupleCommands i xs, Plain utf8 (pyKinds utf8 lengths) op
  | [], _, _, _ => by simp [PyVal.tupleCommands]
  | x :: xs, he, h, i => by
    simp only [PyVal.TupleLengthsAll] at h
    simp only [PyVal.OneEncodingAll] at he
    exact plain_append (plain_append
      (plain_of (by simp [opKind]) (by simp) (by simp) (by simp) (by simp))
      (commands_plain he.1 h.1)) (tupleCommands_plain he.2 h.2 (i + 1))
theorem dictCommands_plain {lengths : List Nat} {b : Option Nat} : ∀ {xs : List (String × PyVal)},
    PyVal.OneEncodingFields utf8 xs → PyVal.TupleLengthsFields lengths b xs →
    ∀ op ∈ PyVal.dictCommands xs, Plain utf8 (pyKinds utf8 lengths) op
  | [], _, _ => by simp [PyVal.dictCommands]
  | (k, x) :: xs, he, h => by
    simp only [PyVal.TupleLengthsFields] at h
    simp only [PyVal.OneEncodingFields] at he
    exact plain_append (plain_append
      (plain_of (by simp [opKind]) (by simp) (by simp) (by simp) (by simp))
      (commands_plain he.1 h.1)) (dictCommands_plain he.2 h.2)
end

theorem feedAll_commands {lengths : List Nat} {xs : List PyVal} (hk : ∀ x ∈ xs, x.DistinctKeys)
    (ht : ∀ x ∈ xs, x.TupleLengths lengths none) (done : List Val) :
    feedAll done .idle (xs.flatMap PyVal.commands) = ok (done ++ xs.map PyVal.val, .idle) ∧
      NarrowAll .idle (xs.flatMap PyVal.commands) := by
  induction xs generalizing done with
  | nil => simp [Spec.feedAll, NarrowAll]
  | cons x xs ih =>
    have h1 := (commands_spell (hk x List.mem_cons_self) (ht x List.mem_cons_self)).feedAll
      (rest := xs.flatMap PyVal.commands) done
    have h2 := ih (fun y hy => hk y (List.mem_cons_of_mem _ hy))
      (fun y hy => ht y (List.mem_cons_of_mem _ hy)) (done ++ [x.val])
    rw [List.flatMap_cons]
    refine ⟨?_, h1.2 h2.2⟩
    rw [h1.1, h2.1]
    simp

/-! ### Clearing -/

theorem Rep.weaken {kinds' : List Kind} (hk : ∀ k ∈ kinds, k ∈ kinds') {b : Builder}
    {done : List Val} {part : Part} (h : Rep utf8 kinds b done part) :
    Rep utf8 kinds' b done part := by
  induction h with
  | unknown n => exact .unknown n
  | bool h => exact .bool (hk _ h)
  | int h => exact .int (hk _ h)
  | float h h2 => exact .float (hk _ h) h2
  | str h => exact .str (hk _ h)
  | listIdle h _ ih => exact .listIdle (hk _ h) ih
  | listOpen h _ ih => exact .listOpen (hk _ h) ih
  | tupleIdle h h2 _ ih => exact .tupleIdle (hk _ h) h2 ih
  | tupleOpen h h2 h3 _ h4 h5 ih => exact .tupleOpen (hk _ h) h2 h3 ih h4 h5
  | recordIdle h h2 h3 h4 h5 _ ih => exact .recordIdle (hk _ h) h2 h3 h4 h5 ih
  | recordOpen h h2 h3 h4 h5 h6 h7 _ h8 h9 ih => exact .recordOpen (hk _ h) h2 h3 h4 h5 h6 h7 ih h8 h9
  | option _ h ih => exact .option ih h
  | union h1 h2 h3 h4 h5 _ h6 ih => exact .union h1 h2 (fun k hkk => hk k (h3 k hkk)) h4 h5 ih h6

theorem clearAll_eq (cs : List Builder) : clearAll cs = cs.map clear := by
  induction cs with
  | nil => rfl
  | cons c cs ih => simp [clearAll, ih]

theorem kind_clear {b : Builder} (h : ∀ n, b.kind ≠ some (.record n)) : (clear b).kind = b.kind := by
  cases b with
  | record cs keys name => exact absurd rfl (h name)
  | tuple cs => simp [clear, kind, clearAll_eq]
  | _ => rfl

/-- A cleared node without tuples and records represents no values. -/
theorem Rep.clear (hkinds : ∀ k ∈ kinds, (∀ n, k ≠ .tuple n) ∧ ∀ n, k ≠ .record n) {b : Builder}
    {done : List Val} {part : Part} (h : Rep utf8 kinds b done part) (hpart : part = .idle) :
    Rep utf8 kinds b.clear [] .idle := by
  induction h with
  | unknown n => exact .unknown 0
  | bool h => exact .bool (xs := []) h
  | int h => exact .int (xs := []) h
  | float h _ => exact .float (xs := []) h .nil
  | str h => exact .str (ss := []) h
  | listIdle h _ ih => exact .listIdle (ls := []) h (ih rfl)
  | tupleIdle h => exact absurd rfl ((hkinds _ h).1 _)
  | recordIdle h => exact absurd rfl ((hkinds _ h).2 _)
  | listOpen => cases hpart
  | tupleOpen => cases hpart
  | recordOpen => cases hpart
  | option _ _ ih => exact .option (index := []) (ih hpart) (by simp)
  | @union tags index cs current cols ks part h1 h2 h3 h4 h5 _ h6 ih =>
    subst hpart
    have hcur : current = -1 := by
      rcases h6 with h | h
      · exact h.1
      · have := h.2.2; simp [Part.isIdle] at this
    have hks : (cs.map Builder.clear).map kind = ks.map some := by
      rw [← h1, List.map_map]
      apply List.map_congr_left
      intro c hc
      apply kind_clear
      intro n hn
      have : some (Kind.record n) ∈ ks.map some := by
        rw [← h1, ← hn]
        exact List.mem_map.mpr ⟨c, hc, rfl⟩
      obtain ⟨k, hk, hkn⟩ := List.mem_map.mp this
      cases hkn
      exact (hkinds _ (h3 _ hk)).2 n rfl
    have := Rep.union (utf8 := utf8) (kinds := kinds) (tags := []) (index := []) (cs := cs.map Builder.clear)
      (cols := cs.map (fun _ => [])) (current := -1) (part := .idle) hks h2 h3 .nil (by simp) ?_ (.inl ⟨rfl, rfl⟩)
    · simpa [Builder.clear, clearAll_eq, hcur] using this
    · intro i c items hc hi
      rw [List.getElem?_map] at hc hi
      obtain ⟨c', hc', rfl⟩ := Option.map_eq_some_iff.mp hc
      obtain ⟨_, _, rfl⟩ := Option.map_eq_some_iff.mp hi
      rw [ite_self]
      have hil := (List.getElem?_eq_some_iff.mp hc').1
      exact ih i c' _ hc' (List.getElem?_eq_getElem (show i < cols.length by omega)) (by simp)

end Builder
end Awk
