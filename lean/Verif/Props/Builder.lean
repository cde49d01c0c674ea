import Verif.Lemmas.BuilderRun
/-
Property theorems C01, C04, C05 and C06: what an `ArrayBuilder` makes of its commands.

`cap n` is the allocated size of a buffer with `n` items (only used by the code for complex numbers).
`same` stands for the test whether two arrays are the same object. It is only known that the same
object has the same contents.
-/

namespace Awk
open R Spec

namespace Builder

variable {utf8 : Bool} {kinds : List Kind} {same : Content → Content → Bool}

/-- What is read from the snapshot of a node. -/
theorem Rep.toList (hsame : ∀ a b, same a b = true → a = b) {b : Builder} {done : List Val}
    {part : Part} (h : Rep utf8 kinds b done part) (hmax : kinds.length ≤ 127) :
    ∃ c vs, b.snapshot same = ok c ∧ c.Good ∧ c.toList = ok vs ∧ List.Forall₂ Shown done vs := by
  obtain ⟨c, hc, hs, _⟩ := h.snapshot hsame hmax
  refine ⟨c, _, hc, hs.good, hs.good.toList, ?_⟩
  rw [List.forall₂_iff_get]
  refine ⟨by simp [hs.len], fun i h1 h2 => ?_⟩
  simp only [List.get_eq_getElem, List.getElem_map, List.getElem_range]
  exact hs.val i _ (List.getElem?_eq_getElem h1)

/-- A fresh builder. -/
theorem rep_fresh : Rep utf8 kinds (unknown 0) [] .idle := .unknown 0

end Builder

namespace Props
open Builder

/-- C01: a fresh builder that is filled with the commands that spell out Python objects (`None`,
booleans, integers, floats, strings, lists, tuples and dicts, nested in any way) raises no error, has
as many elements as there are objects, and its snapshot is a valid array that shows the same values,
in order. Integers may have become reals, and records may have gained missing fields.

Missing from the full property: strings and bytes in the same builder (`C06_violated`), tuples inside
of shorter tuples (`C01_nested_tuple_violated`) and more than 121 different lengths of tuples
(`C01_alternatives_violated`); complex numbers and dates. -/
theorem C01_partial {same : Content → Content → Bool} (hsame : ∀ a b, same a b = true → a = b)
    (cap : Nat → Nat) {utf8 : Bool} {lengths : List Nat} {xs : List PyVal}
    (hkeys : ∀ x ∈ xs, x.DistinctKeys) (hstr : ∀ x ∈ xs, x.OneEncoding utf8)
    (htuple : ∀ x ∈ xs, x.TupleLengths lengths none) (hmany : lengths.length ≤ 121) :
    ∃ b c vs, run cap (unknown 0) (xs.flatMap PyVal.commands) = ok b ∧ b.length = xs.length ∧
      b.snapshot same = ok c ∧ c.Good ∧ c.toList = ok vs ∧
      List.Forall₂ Shown (xs.map PyVal.val) vs := by
  have hmax : (pyKinds utf8 lengths).length ≤ 127 := by simp [pyKinds]; omega
  have hp : ∀ op ∈ xs.flatMap PyVal.commands, Plain utf8 (pyKinds utf8 lengths) op := by
    intro op ho
    obtain ⟨x, hx, hxo⟩ := List.mem_flatMap.mp ho
    exact commands_plain (hstr x hx) (htuple x hx) op hxo
  obtain ⟨h1, h2⟩ := feedAll_commands hkeys htuple []
  obtain ⟨hs, ht⟩ := (rep_fresh (utf8 := utf8)).run (cap := cap) hmax hp
  obtain ⟨b, hb⟩ := ht ⟨⟨_, h1⟩, h2⟩
  rw [hb, sat_ok] at hs
  obtain ⟨done, part, hf, hrep⟩ := hs
  rw [h1] at hf
  cases hf
  obtain ⟨c, vs, hc⟩ := hrep.toList hsame hmax
  exact ⟨b, c, vs, hb, by rw [hrep.length_eq]; simp, hc⟩

/-- C01: a mixture of `None`, numbers, text, lists, nested tuples and dicts with different fields. -/
example : let xs : List PyVal :=
      [.none, .int 1, .float (5/2), .str [104, 105], .list [.int 1, .list [], .bool true],
        .tuple [.int 3, .tuple [.str [], .none]], .dict [("x", .int 1), ("y", .list [])],
        .dict [("y", .list [.int 1]), ("z", .none)]]
    (∀ x ∈ xs, x.DistinctKeys) ∧ (∀ x ∈ xs, x.OneEncoding true) ∧
    ∀ x ∈ xs, x.TupleLengths [2] none := by
  simp [PyVal.DistinctKeys, PyVal.DistinctKeysAll, PyVal.DistinctKeysFields, PyVal.OneEncoding,
    PyVal.OneEncodingAll, PyVal.OneEncodingFields, PyVal.TupleLengths, PyVal.TupleLengthsAll,
    PyVal.TupleLengthsFields]

/-- C01 does not hold for a tuple inside of a shorter one: `((1, 2, 3),)` raises an error, because
`index(1)` for the inner tuple is compared with the number of fields of the outer one. -/
theorem C01_nested_tuple_violated (cap : Nat → Nat) :
    (run cap (unknown 0) (PyVal.tuple [.tuple [.int 1, .int 2, .int 3]]).commands).IsErr :=
  ⟨_, rfl⟩

set_option maxRecDepth 100000 in
/-- C01 does not hold for more than 128 kinds of values: the tag of the 129th alternative of a union
does not fit, and the next command leaves the memory of the builder. Here the values are tuples
of `None` of the lengths 0, 1, …, 128. -/
theorem C01_alternatives_violated (cap : Nat → Nat) :
    (∃ b, run cap (unknown 0) ((List.range 128).flatMap (fun n => [.beginTuple n, .endTuple])) = ok b) ∧
    run cap (unknown 0) ((List.range 129).flatMap (fun n => [.beginTuple n, .endTuple])) = ub :=
  ⟨⟨_, rfl⟩, rfl⟩

/-- C06 does not hold: bytes appended to a builder that begins with a string are shown as a string. -/
theorem C06_violated (same : Content → Content → Bool) (cap : Nat → Nat) :
    ∃ b c, run cap (unknown 0) ([PyVal.str [97], PyVal.bytes [98]].flatMap PyVal.commands) = ok b ∧
      b.snapshot same = ok c ∧
      c.toList = ok [.str [.atom (.int 97)], .str [.atom (.int 98)]] ∧
      ¬ Shown (PyVal.bytes [98]).val (.str [.atom (.int 98)]) := by
  refine ⟨_, _, rfl, rfl, rfl, ?_⟩
  intro h
  cases h

/-- C06: every string is shown as the same string and every bytes object as the same bytes object,
among any other values.

Missing from the full property: strings and bytes in the same builder, see `C06_violated`. -/
theorem C06_partial {same : Content → Content → Bool} (hsame : ∀ a b, same a b = true → a = b)
    (cap : Nat → Nat) {utf8 : Bool} {lengths : List Nat} {xs : List PyVal}
    (hkeys : ∀ x ∈ xs, x.DistinctKeys) (hstr : ∀ x ∈ xs, x.OneEncoding utf8)
    (htuple : ∀ x ∈ xs, x.TupleLengths lengths none) (hmany : lengths.length ≤ 121) :
    ∃ b c vs, run cap (unknown 0) (xs.flatMap PyVal.commands) = ok b ∧ b.snapshot same = ok c ∧
      c.toList = ok vs ∧ ∀ (i : Nat) (codes : List Nat),
        (xs[i]? = some (.str codes) →
          vs[i]? = some (.str (codes.map (fun (n : Nat) => .atom (.int n))))) ∧
        (xs[i]? = some (.bytes codes) →
          vs[i]? = some (.bytes (codes.map (fun (n : Nat) => .atom (.int n))))) := by
  obtain ⟨b, c, vs, hb, _, hc, _, hv, hs⟩ := C01_partial hsame cap hkeys hstr htuple hmany
  refine ⟨b, c, vs, hb, hc, hv, fun i codes => ?_⟩
  rw [List.forall₂_iff_get] at hs
  have key : ∀ x, xs[i]? = some x → ∃ v, vs[i]? = some v ∧ Shown x.val v := by
    intro x hx
    obtain ⟨hi, hx⟩ := List.getElem?_eq_some_iff.mp hx
    have hi' : i < vs.length := by rw [← hs.1]; simpa using hi
    refine ⟨vs[i], List.getElem?_eq_getElem hi', ?_⟩
    have := hs.2 i (by simpa using hi) hi'
    simpa [hx] using this
  constructor <;>
  · intro hx
    obtain ⟨v, hv, hsh⟩ := key _ hx
    rw [hv]
    simp only [PyVal.val] at hsh
    cases hsh
    rfl

/-- C06: strings between other values. -/
example : ∀ x ∈ [PyVal.str [104], .none, .int 1, .str []],
    x.DistinctKeys ∧ x.OneEncoding true ∧ x.TupleLengths [] none := by
  simp [PyVal.DistinctKeys, PyVal.OneEncoding, PyVal.TupleLengths]

/-- C05: what any sequence of commands (well formed or not) does to a fresh builder. It never leaves
the memory of the builder. If it does not raise an error, the commands spell out a sequence of
complete values and possibly the beginning of another one (so every command that does not match an
open container has raised an error), the length is the number of complete values, and the snapshot is
a valid array that shows exactly these. It does not raise an error if the commands match.

`Plain`: at most 127 kinds of values, of one string encoding and without complex numbers, no negative
field numbers and no records with the empty string as name. `NarrowAll`: no inner tuple has more
fields than an outer one. See `C05_index_violated`, `C05_complex_violated`, `C06_violated`,
`C01_nested_tuple_violated` and `C01_alternatives_violated`. Missing is also what the builder is after
an error. -/
theorem C05_partial {same : Content → Content → Bool} (hsame : ∀ a b, same a b = true → a = b)
    (cap : Nat → Nat) {utf8 : Bool} {kinds : List Kind} (hmax : kinds.length ≤ 127) {ops : List Op}
    (hp : ∀ op ∈ ops, Plain utf8 kinds op) :
    run cap (unknown 0) ops ≠ ub ∧
    (∀ b, run cap (unknown 0) ops = ok b → ∃ done part c vs,
      feedAll [] .idle ops = ok (done, part) ∧ b.length = done.length ∧
      b.snapshot same = ok c ∧ c.Good ∧ c.toList = ok vs ∧ List.Forall₂ Shown done vs) ∧
    (IsOk (feedAll [] .idle ops) → NarrowAll .idle ops → IsOk (run cap (unknown 0) ops)) := by
  obtain ⟨hs, ht⟩ := (rep_fresh (utf8 := utf8)).run (cap := cap) hmax hp
  refine ⟨fun hub => by rw [hub, sat_ub] at hs; exact hs, fun b hb => ?_, fun h1 h2 => ht ⟨h1, h2⟩⟩
  rw [hb, sat_ok] at hs
  obtain ⟨done, part, hf, hrep⟩ := hs
  obtain ⟨c, vs, hc⟩ := hrep.toList hsame hmax
  exact ⟨done, part, c, vs, hf, hrep.length_eq, hc⟩

/-- C05: commands that match, with a begun record at the end, and commands that do not. -/
example : let ops : List Op := [.beginList, .int 1, .null, .endList, .beginRecord (some "point"),
      .field "x", .real (1/2)]
    (∀ op ∈ ops, Plain true [.int, .float, .list, .record (some "point")] op) ∧
    IsOk (feedAll [] .idle ops) ∧ NarrowAll .idle ops ∧ ¬ IsOk (feedAll [] .idle (ops ++ [.endList])) := by
  refine ⟨?_, ⟨_, rfl⟩, ?_, ?_⟩
  · simp only [List.mem_cons, List.not_mem_nil, or_false]
    rintro op (rfl | rfl | rfl | rfl | rfl | rfl | rfl) <;>
      exact ⟨by simp [opKind], by simp, by simp, by simp, by simp⟩
  · simp [NarrowAll, Narrow, feed, opVal, Part.isIdle, withKey]
  · rintro ⟨_, h⟩; cases h

/-- C05 does not hold for negative field numbers: `index(-2)` of a tuple does not raise, and the next
value is appended to a node outside of the tuple. -/
theorem C05_index_violated (cap : Nat → Nat) :
    run cap (unknown 0) [.beginTuple 2, .index (-2), .int 1] = ub := rfl

/-- C05 does not hold for complex numbers: an `end_record` without a record does nothing. -/
theorem C05_complex_violated (cap : Nat → Nat) :
    run cap (unknown 0) [.complex 1 2, .endRecord] = ok (complex [(1, 2)]) := rfl

/-- C05 does not hold for complex numbers: a complex number after integers makes the builder read
more integers than there are, unless the buffer has room for twice as many. -/
theorem C05_from_int_violated (cap : Nat → Nat) (h : cap 3 < 6) :
    run cap (unknown 0) [.int 1, .int 2, .int 3, .complex 1 2] = ub := by
  simp [run, step, start]
  omega

/-- C04: a builder that has been filled with complete values other than tuples and records and is
cleared is empty, and does with any commands (of any kinds) what a fresh builder does: it never
leaves its memory, raises no error if the commands match, and its snapshot shows the values given
after `clear`, and only these.

Missing from the full property: tuples and records before `clear` (`C04_tuple_violated`,
`C04_record_violated`) and lists that are open (`C04_open_violated`); otherwise as in C05. -/
theorem C04_partial {same : Content → Content → Bool} (hsame : ∀ a b, same a b = true → a = b)
    (cap : Nat → Nat) {utf8 : Bool} {kinds kinds' : List Kind} (hmax : kinds'.length ≤ 127)
    (hsub : kinds ⊆ kinds') (hflat : ∀ k ∈ kinds, (∀ n, k ≠ .tuple n) ∧ ∀ n, k ≠ .record n)
    {before ops : List Op} (hbefore : ∀ op ∈ before, Plain utf8 kinds op)
    (hp : ∀ op ∈ ops, Plain utf8 kinds' op) {b : Builder} (hb : run cap (unknown 0) before = ok b)
    {done₀ : List Val} (hcomplete : feedAll [] .idle before = ok (done₀, .idle)) :
    b.clear.length = 0 ∧
    run cap b.clear ops ≠ ub ∧
    (∀ b', run cap b.clear ops = ok b' → ∃ done part c vs,
      feedAll [] .idle ops = ok (done, part) ∧ b'.length = done.length ∧
      b'.snapshot same = ok c ∧ c.Good ∧ c.toList = ok vs ∧ List.Forall₂ Shown done vs) ∧
    (IsOk (feedAll [] .idle ops) → NarrowAll .idle ops → IsOk (run cap b.clear ops)) := by
  have hbefore' : ∀ op ∈ before, Plain utf8 kinds' op :=
    fun op ho => ⟨fun k hk => hsub ((hbefore op ho).kind k hk), (hbefore op ho).real,
      (hbefore op ho).encoding, (hbefore op ho).nonneg, (hbefore op ho).named⟩
  have hrep : Rep utf8 kinds' b.clear [] .idle := by
    by_cases hmax' : kinds.length ≤ 127
    · obtain ⟨hs, _⟩ := (rep_fresh (utf8 := utf8)).run (cap := cap) hmax' hbefore
      rw [hb, sat_ok] at hs
      obtain ⟨done, part, hf, hrep⟩ := hs
      rw [hcomplete] at hf
      cases hf
      exact (hrep.clear hflat rfl).weaken (fun k hk => hsub hk)
    · obtain ⟨kinds'', h1, h2⟩ : ∃ kinds'' : List Kind, kinds''.length ≤ 127 ∧
          ∀ k, k ∈ kinds'' ↔ k ∈ kinds := by
        refine ⟨kinds.dedup, ?_, fun k => List.mem_dedup⟩
        have : kinds.dedup ⊆ kinds' := fun k hk => hsub (List.mem_dedup.mp hk)
        exact ((List.subperm_of_subset (List.nodup_dedup _) this).length_le).trans hmax
      obtain ⟨hs, _⟩ := (rep_fresh (utf8 := utf8)).run (cap := cap) h1
        (fun op ho => ⟨fun k hk => (h2 k).mpr ((hbefore op ho).kind k hk), (hbefore op ho).real,
          (hbefore op ho).encoding, (hbefore op ho).nonneg, (hbefore op ho).named⟩)
      rw [hb, sat_ok] at hs
      obtain ⟨done, part, hf, hrep⟩ := hs
      rw [hcomplete] at hf
      cases hf
      exact (hrep.clear (fun k hk => hflat k ((h2 k).mp hk)) rfl).weaken
        (fun k hk => hsub ((h2 k).mp hk))
  obtain ⟨hs, ht⟩ := hrep.run (cap := cap) hmax hp
  refine ⟨by rw [hrep.length_eq]; simp, fun hub => by rw [hub, sat_ub] at hs; exact hs,
    fun b' hb' => ?_, fun h1 h2 => ht ⟨h1, h2⟩⟩
  rw [hb', sat_ok] at hs
  obtain ⟨done, part, hf, hrep'⟩ := hs
  obtain ⟨c, vs, hc⟩ := hrep'.toList hsame hmax
  exact ⟨done, part, c, vs, hf, hrep'.length_eq, hc⟩

/-- C04: a union of numbers and lists with missing values, refilled with other values. -/
example (cap : Nat → Nat) : let before : List Op := [.int 1, .null, .beginList, .real 2, .endList]
    let ops : List Op := [.beginTuple 1, .endTuple, .bool true]
    let kinds : List Kind := [.int, .float, .list]
    (∀ op ∈ before, Plain true kinds op) ∧ (∀ op ∈ ops, Plain true (kinds ++ [.tuple 1, .bool]) op) ∧
    (∃ b, run cap (unknown 0) before = ok b) ∧ feedAll [] .idle before =
      ok ([.atom (.int 1), .null, .list [.atom (.real 2)]], .idle) ∧
    IsOk (feedAll [] .idle ops) ∧ NarrowAll .idle ops := by
  refine ⟨?_, ?_, ⟨_, rfl⟩, rfl, ⟨_, rfl⟩, ?_⟩
  · simp only [List.mem_cons, List.not_mem_nil, or_false]
    rintro op (rfl | rfl | rfl | rfl | rfl) <;>
      exact ⟨by simp [opKind], by simp, by simp, by simp, by simp⟩
  · simp only [List.mem_cons, List.not_mem_nil, or_false]
    rintro op (rfl | rfl | rfl) <;>
      exact ⟨by simp [opKind], by simp, by simp, by simp, by simp⟩
  · simp [NarrowAll, Narrow, feed, opVal, Part.isIdle, single, mapR]

/-- C04 does not hold for tuples: after `clear`, an empty list appended to a builder of lists of
tuples has the length -1, and the snapshot is not valid. -/
theorem C04_tuple_violated (same : Content → Content → Bool) (cap : Nat → Nat) :
    ∃ b b' c, run cap (unknown 0) (PyVal.list [.tuple [.int 1]]).commands = ok b ∧
      run cap b.clear (PyVal.list []).commands = ok b' ∧ b'.snapshot same = ok c ∧
      c = .listOffset {} [0, -1] (.empty {}) ∧ ¬ IsOk c.toList ∧
      ∃ b₁ c₁, run cap (unknown 0) (PyVal.list []).commands = ok b₁ ∧ b₁.snapshot same = ok c₁ ∧
        c₁.toList = ok [.list []] := by
  refine ⟨_, _, _, rfl, rfl, rfl, rfl, ?_, _, _, rfl, rfl, rfl⟩
  rintro ⟨_, h⟩
  cases h

/-- C04 does not hold for records: after `clear` the builder has fields without names. -/
theorem C04_record_violated (same : Content → Content → Bool) (cap : Nat → Nat) :
    ∃ b b', run cap (unknown 0) (PyVal.dict [("x", .int 1)]).commands = ok b ∧
      run cap b.clear (PyVal.dict []).commands = ok b' ∧ b'.snapshot same = ub := by
  exact ⟨_, _, rfl, rfl, rfl⟩

/-- C04 does not hold for a builder with an open list: the list is still open after `clear`. -/
theorem C04_open_violated (cap : Nat → Nat) :
    ∃ b b', run cap (unknown 0) [.beginList] = ok b ∧ run cap b.clear [.int 1] = ok b' ∧
      b'.length = 0 := ⟨_, _, rfl, rfl, rfl⟩

end Props
end Awk
