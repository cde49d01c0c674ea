import Verif.Lemmas.VirtualStep
import Verif.Lemmas.ValEq
/-
C35: lazy arrays.
-/

namespace Awk.Props
open R Spec Content

theorem runBetween_agrees {arrays : List Virtual} (hk : SeparateKeys arrays) (e : Env)
    (steps : List (Uses × LazyOp)) (hu : ∀ s ∈ steps, s.1.Within arrays) {x : R Content} {out : Out}
    (h : Agrees arrays e.same x (ok out))
    (ha : ∀ d, x = ok d → Applies e.same (steps.map Prod.snd) d) :
    Runs arrays (runBetween e steps out)
      (Agrees arrays e.same (x >>= fun c => directOps e.same (steps.map Prod.snd) c)) := by
  induction steps generalizing x out with
  | nil =>
    have : (x >>= fun c => directOps e.same (([] : List (Uses × LazyOp)).map Prod.snd) c) = x := by
      cases x <;> rfl
    rw [this]
    exact Runs.lift h
  | cons p steps ih =>
    obtain ⟨uses, op⟩ := p
    have hstep : Runs arrays ((op.on e out).andThen fun out' => runBetween e steps out')
        (Agrees arrays e.same (x >>= fun c => directOps e.same (op :: steps.map Prod.snd) c)) := by
      have e1 : (x >>= fun c => directOps e.same (op :: steps.map Prod.snd) c)
          = (x >>= fun c => op.direct e.same c) >>= fun c => directOps e.same (steps.map Prod.snd) c := by
        rw [R.bind_assoc]; rfl
      rw [e1]
      refine (agrees_on hk h fun d hd => (ha d hd).1).andThen (fun out' h' => ?_) (fun s hs => ?_)
        (fun hs => hs.elim)
      · refine ih (fun s hs => hu s (List.mem_cons_of_mem _ hs)) h' fun d hd => ?_
        rw [bind_eq_ok] at hd
        obtain ⟨c, hc, hd⟩ := hd
        exact (ha c hc).2 d hd
      · obtain ⟨s', hs'⟩ := hs
        exact ⟨s', by rw [hs']; rfl⟩
    intro w hw
    exact hstep _ (history_keeps hk e (hu (uses, op) (by simp)) hw)

/-- An honest lazy array agrees with the array it stands for. -/
theorem honest_agrees {arrays : List Virtual} {v : Virtual} (hv : v ∈ arrays)
    {c : Content} (hc : c.validity = ok ()) (hh : Honest c v) (hs : c.form.Settled)
    (hl : (c.len : Int) < kSliceNone) (same : Content → Content → Bool) :
    Stands arrays same c v c := by
  obtain ⟨form, length, cache, key, rfl⟩ := hh.made
  exact ⟨hv, check_ok_of hh.length hh.form hs, Twin.refl (good_of_validity hc) hs hl, hh.length,
    hh.form⟩

/-- **C35.** Take any lazy arrays that users made, each with its own key, whose function gives an
array or raises. One of them stands for the valid array `c` and keeps its promises. Slice it
lazily in any way (ranges, ranges with steps, positions, a new axis, fields) that applies to `c`, any
number of times, and read the result: it is what the same operations give on `c` itself, and it
raises exactly if they do. This holds whatever else is sliced and read before each of the
operations and before the reading, whatever entries the caches drop at any time (`e.drops`), and
whether or not forms were inferred before (`e.inferred`). Missing for the full property: an array
with bit masks (for which it is false, `C35_bitmask_violated`), fields of a union
(`C35_union_violated`), records with two fields of the same name (`C35_names_violated`), a function
that gives more items than promised (`C35_length_violated`), single elements (`C35_element`) and
arrays with lazy parts. -/
theorem C35_transparent_partial (arrays : List Virtual) (hk : SeparateKeys arrays) (v : Virtual)
    (hv : v ∈ arrays) (c : Content) (hc : c.validity = ok ()) (hh : Honest c v)
    (hs : c.form.Settled) (hl : (c.len : Int) < kSliceNone) (e : Env)
    (steps : List (Uses × LazyOp)) (last : Uses) (hu : ∀ s ∈ steps, s.1.Within arrays)
    (hlast : last.Within arrays) (ha : Applies e.same (steps.map Prod.snd) c) :
    match directOps e.same (steps.map Prod.snd) c with
    | ok d => ∃ vs, d.toList = ok vs ∧ (session e v steps last World.start).1 = ok vs
    | err _ => (session e v steps last World.start).1.IsErr
    | ub => False := by
  have h0 := (honest_agrees hv hc hh hs hl e.same).agrees
  have h1 := runBetween_agrees hk e steps hu h0 (fun d hd => by
    simp only [ok.injEq] at hd; subst hd; exact ha)
  rw [bind_ok] at h1
  have h2 : Runs arrays (session e v steps last) (fun q =>
      (∃ d vs, directOps e.same (steps.map Prod.snd) c = ok d ∧ d.toList = ok vs ∧ q = ok vs) ∨
        ((directOps e.same (steps.map Prod.snd) c).IsErr ∧ q.IsErr)) := by
    refine h1.andThen (fun out ho => ?_) (fun s hs => .inr ⟨hs, s, rfl⟩) (fun hs => hs.elim)
    have h3 : Runs arrays ((out.read e).andThen fun c => Act.lift c.toList) (fun q =>
        (∃ d vs, directOps e.same (steps.map Prod.snd) c = ok d ∧ d.toList = ok vs ∧ q = ok vs) ∨
          ((directOps e.same (steps.map Prod.snd) c).IsErr ∧ q.IsErr)) := by
      refine (agrees_read hk ho).andThen (fun l hl => Runs.lift ?_) (fun s hs => ?_) (fun hs => ?_)
      · rcases hl with ⟨d, l', hd, hl', t⟩ | ⟨_, s, hs⟩
        · simp only [ok.injEq] at hl'
          subst hl'
          exact .inl ⟨d, _, hd, seg_all t.good, by rw [← t.toList, seg_all t.good]⟩
        · cases hs
      · rcases hs with ⟨_, _, _, hs, _⟩ | ⟨hx, _⟩
        · cases hs
        · exact .inr ⟨hx, s, rfl⟩
      · rcases hs with ⟨_, _, _, hs, _⟩ | ⟨_, _, hs⟩ <;> cases hs
    intro w hw
    exact h3 _ (history_keeps hk e hlast hw)
  rcases (h2 World.start start_consistent).2 with ⟨d, vs, hd, hvs, hq⟩ | ⟨⟨s, hx⟩, hq⟩
  · rw [hd]; exact ⟨vs, hvs, hq⟩
  · rw [hx]; exact hq

/-- Records with the fields `x` (lists) and `y` (with missing values). -/
def exampleLazy : Content := .record {} (some ["x", "y"])
  [.listOffset {} [0, 2, 2, 3] (.numpy {} .int64 [.int 1, .int 2, .int 3]),
   .byteMasked {} [1, 0, 1] true (.numpy {} .int64 [.int 10, .int 20, .int 30])] 3

/-- A lazy array for it. -/
def lazyRecords : Virtual := .user (some exampleLazy.form) (some 3) (ok exampleLazy) (some 0) "a"

/-- A lazy array that raises, without promises, with the same cache. -/
def lazyBroken : Virtual := .user none none (err "no such file") (some 0) "b"

/-- Every entry is dropped at every third use of the caches. -/
def exampleEnv : Env := ⟨fun t _ _ => t % 3 = 2, fun t => t % 2 = 0, fun _ _ => false⟩

/-- `lazyRecords[::-1]["x"][1:]`, with other uses before the second operation and the reading. -/
def exampleSteps : List (Uses × LazyOp) :=
  [([], .steps none none (-1)), ([(lazyBroken, [.newaxis]), (lazyRecords, [])], .fields (.one "x")),
   ([], .range (some 1) none)]

theorem example_keys : SeparateKeys [lazyRecords, lazyBroken] := by
  constructor
  · intro v hv
    simp only [List.mem_cons, List.not_mem_nil, or_false] at hv
    rcases hv with rfl | rfl
    · exact ⟨_, _, _, _, _, rfl⟩
    · exact ⟨_, _, _, _, _, rfl⟩
  · intro f n x c k f' n' x' h h'
    simp only [lazyRecords, lazyBroken, List.mem_cons, List.not_mem_nil, or_false,
      Virtual.user.injEq] at h h'
    rcases h with ⟨rfl, rfl, rfl, _, rfl⟩ | ⟨rfl, rfl, rfl, _, rfl⟩ <;>
      rcases h' with ⟨rfl, rfl, rfl, _, h⟩ | ⟨rfl, rfl, rfl, _, h⟩ <;>
      first
        | exact ⟨rfl, rfl, rfl⟩
        | exact absurd h (by decide)

example : exampleLazy.validity = ok () := by rfl
example : Honest exampleLazy lazyRecords :=
  ⟨⟨_, _, _, _, rfl⟩, fun f hf => by simp only [lazyRecords, Virtual.form] at hf; exact (Option.some.inj hf).symm,
    fun n hn => by simp only [lazyRecords, Virtual.length] at hn; exact (Option.some.inj hn).symm⟩
example : exampleLazy.form.Settled :=
  ⟨fun ks hks => by cases hks; exact ⟨by decide, rfl⟩, trivial, trivial, trivial⟩
example : ∀ s ∈ exampleSteps, s.1.Within [lazyRecords, lazyBroken] := by
  intro s hs p hp
  simp only [exampleSteps, List.mem_cons, List.not_mem_nil, or_false] at hs
  rcases hs with rfl | rfl | rfl
  · cases hp
  · simp only [List.mem_cons, List.not_mem_nil, or_false] at hp
    rcases hp with rfl | rfl <;> simp
  · cases hp
example : LazyOp.Ok (.steps none none (-1)) exampleLazy :=
  ⟨by decide, by decide, by decide, by decide⟩
example : Applies exampleEnv.same (exampleSteps.map Prod.snd) exampleLazy := by
  refine ⟨⟨by decide, by decide, by decide, by decide⟩, fun c' hc' => ⟨⟨?_, by simp⟩,
    fun _ _ => ⟨⟨by decide, by decide⟩, fun _ _ => trivial⟩⟩⟩
  have : (LazyOp.steps none none (-1)).direct exampleEnv.same exampleLazy
      = ok (.indexed {} [2, 1, 0] exampleLazy) := by rfl
  rw [this] at hc'
  cases hc'
  refine .option rfl fun d hd => ?_
  simp only [children, List.mem_singleton] at hd
  subst hd
  exact .one (i := 0) ⟨by decide, rfl, fun j hj => absurd hj (by omega)⟩ rfl .nil
example : (session exampleEnv lazyRecords exampleSteps [(lazyRecords, [])] World.start).1
    = ok [.list [], .list [.atom (.int 1), .atom (.int 2)]] :=
  R.lists (by decide +kernel)
example : (directOps exampleEnv.same (exampleSteps.map Prod.snd) exampleLazy >>= Content.toList)
    = ok [.list [], .list [.atom (.int 1), .atom (.int 2)]] :=
  R.lists (by decide +kernel)

/-- **C35 (single elements).** `array[i]` of an honest lazy array, after any other uses, is what
`array[i]` gives on the array it stands for (and raises exactly if that does). -/
theorem C35_element (arrays : List Virtual) (hk : SeparateKeys arrays) (v : Virtual)
    (hv : v ∈ arrays) (c : Content) (hc : c.validity = ok ()) (hh : Honest c v)
    (hs : c.form.Settled) (hl : (c.len : Int) < kSliceNone) (e : Env) (uses : Uses)
    (hu : uses.Within arrays) (i : Int) :
    (v.getitemAt e i (history e uses World.start)).1 = c.getitemAt i := by
  have h := honest_agrees hv hc hh hs hl e.same
  have harr : Runs arrays (v.array e) (fun q => q = ok c) :=
    (array_runs hk e v h.made).mono fun q hq => by rw [hq, h.gen]
  have hlen : Runs arrays (v.len e) (fun q => q = ok c.len) := by
    unfold Virtual.len
    split
    · rename_i n hn
      exact Runs.lift (by rw [h.length n hn])
    · refine harr.andThen (fun a ha => Runs.lift ?_) (fun s hs => by cases hs) (fun hs => by cases hs)
      simp only [ok.injEq] at ha
      rw [ha]
  have hat : Runs arrays (v.getitemAt e i) (fun q => q = c.getitemAt i) := by
    unfold Virtual.getitemAt
    have hj : Runs arrays
        (if i < 0 then (v.len e).andThen fun n => Act.lift (ok (i + n)) else Act.lift (ok i))
        (fun q => q = ok (if i < 0 then i + (c.len : Int) else i)) := by
      split
      · refine hlen.andThen (fun n hn => Runs.lift ?_) (fun s hs => by cases hs)
          (fun hs => by cases hs)
        simp only [ok.injEq] at hn
        rw [hn]
      · exact Runs.lift rfl
    refine hj.andThen (fun j hj => ?_) (fun s hs => by cases hs) (fun hs => by cases hs)
    refine hlen.andThen (fun n hn => ?_) (fun s hs => by cases hs) (fun hs => by cases hs)
    simp only [ok.injEq] at hj hn
    subst hn
    unfold Content.getitemAt
    simp only
    rw [← hj]
    by_cases hr : 0 ≤ j ∧ j < (c.len : Int)
    · rw [if_neg (not_not.mpr hr), if_neg (not_not.mpr hr)]
      refine harr.andThen (fun a ha => Runs.lift ?_) (fun s hs => by cases hs)
        (fun hs => by cases hs)
      simp only [ok.injEq] at ha
      rw [ha]
    · rw [if_pos hr, if_pos hr]
      exact Runs.lift rfl
  exact (hat _ (history_keeps hk e hu start_consistent)).2

example : ((lazyRecords.getitemAt exampleEnv (-1)
    (history exampleEnv [(lazyRecords, []), (lazyBroken, [])] World.start)).1 >>= Item.toVal)
    = ok (.record [("x", .list [.atom (.int 3)]), ("y", .atom (.int 30))]) :=
  R.gives (by decide +kernel)

/-- **C35 (promises are checked).** Whatever a user promises and whatever the function gives: after
any other uses, a lazy array that can be read has the promised form and at least the promised
length, and reading it gives what its function gave. -/
theorem C35_checked (arrays : List Virtual) (hk : SeparateKeys arrays) (form : Option Form)
    (length : Option Nat) (result : R Content) (cache : Option Nat) (key : String)
    (hv : Virtual.user form length result cache key ∈ arrays) (e : Env) (uses : Uses)
    (hu : uses.Within arrays) (c : Content)
    (h : ((Virtual.user form length result cache key).array e (history e uses World.start)).1 = ok c) :
    result = ok c ∧ (∀ n, length = some n → n ≤ c.len) ∧
      ∀ f, form = some f → f.equal c.form = true := by
  have := (array_runs hk e _ (made_from hk hv) _ (history_keeps hk e hu start_consistent)).2
  rw [h] at this
  simp only [Virtual.generated] at this
  obtain ⟨x, hx, hy⟩ := bind_eq_ok.mp this.symm
  have hrest : checkGenerated.rest form x = ok c → x = c ∧ ∀ f, form = some f → f.equal c.form = true := by
    intro hr
    unfold checkGenerated.rest at hr
    cases form with
    | none =>
      simp only [ok.injEq] at hr
      exact ⟨hr, fun f hf => by cases hf⟩
    | some f =>
      simp only at hr
      split at hr
      · cases hr
      · rename_i hne
        simp only [ok.injEq] at hr
        subst hr
        refine ⟨rfl, fun g hg => ?_⟩
        cases hg
        simpa using hne
  unfold checkGenerated at hy
  cases length with
  | none =>
    obtain ⟨rfl, h2⟩ := hrest hy
    exact ⟨hx, fun n hn => (by cases hn), h2⟩
  | some n =>
    simp only at hy
    split at hy
    · cases hy
    · rename_i hle
      obtain ⟨rfl, h2⟩ := hrest hy
      exact ⟨hx, fun m hm => (by cases hm; omega), h2⟩

/-- A function that gives less than promised. -/
def lazyShort : Virtual := .user none (some 4) (ok exampleLazy) (some 0) "c"
/-- A function that gives something else than promised. -/
def lazyWrong : Virtual := .user (some (.numpy {} .int64 "")) none (ok exampleLazy) none ""

example : ((lazyRecords.array exampleEnv World.start).1 >>= Content.toList) = exampleLazy.toList := by
  rfl
example : (lazyShort.array exampleEnv World.start).1.IsErr := R.raises (by decide +kernel)
example : (lazyWrong.array exampleEnv World.start).1.IsErr := R.raises (by decide +kernel)

/-- Nothing is dropped. -/
def quietEnv : Env := ⟨fun _ _ _ => false, fun _ => false, fun _ _ => false⟩

/-- **C35 is false for a function that gives more than promised.** The extra items are accepted
(`C35_checked` has `≤`), and `array[-1:]` counts from the promised end if the array is not in the
cache, and from the actual end if it is: the result depends on the history. -/
theorem C35_length_violated :
    let v := Virtual.user none (some 2) (ok (.numpy {} .int64 [.int 1, .int 2, .int 3])) (some 0) "k"
    (session quietEnv v [([], .range (some (-1)) none)] [] World.start).1 = ok [.atom (.int 2)] ∧
    (session quietEnv v [([(v, [])], .range (some (-1)) none)] [] World.start).1
      = ok [.atom (.int 3)] :=
  ⟨R.lists (by decide +kernel), R.lists (by decide +kernel)⟩

/-- Records with a field that has a bit mask. -/
def bitRecords : Content := .record {} (some ["x"])
  [.bitMasked {} [5] true 3 true (.numpy {} .int64 [.int 1, .int 2, .int 3])] 3

/-- **C35 is false for records with a bit mask.** The form of a range is promised to be the same,
but a range of a bit mask is a byte mask: `array[0:2]` and `array["x"]` raise when they are read,
unless the array was in the cache, although they work on the array itself. -/
theorem C35_bitmask_violated :
    let v := Virtual.user (some bitRecords.form) (some 3) (ok bitRecords) (some 0) "k"
    bitRecords.validity = ok () ∧ Honest bitRecords v ∧
    (session quietEnv v [([], .range (some 0) (some 2))] [] World.start).1.IsErr ∧
    (session quietEnv v [([], .fields (.one "x"))] [] World.start).1.IsErr ∧
    (session quietEnv v [([(v, [])], .fields (.one "x"))] [] World.start).1
      = ok [.atom (.int 1), .null, .atom (.int 3)] ∧
    (directOps quietEnv.same [.fields (.one "x")] bitRecords >>= Content.toList)
      = ok [.atom (.int 1), .null, .atom (.int 3)] :=
  ⟨rfl, ⟨⟨_, _, _, _, rfl⟩, fun f hf => (by cases hf; rfl), fun n hn => (by cases hn; rfl)⟩,
    R.raises (by decide +kernel), R.raises (by decide +kernel), R.lists (by decide +kernel),
    R.lists (by decide +kernel)⟩

/-- Records of two kinds. -/
def twoKinds : Content := .union {} [0, 1] [0, 0]
  [.record {} (some ["x"]) [.numpy {} .int64 [.int 1]] 1,
   .record {} (some ["x"]) [.numpy {} DType.bool [.bool true]] 1]

/-- **C35 is false for the fields of a union.** The form of a union does not give the form of a
field: `array["x"]` raises if the form is known and the array is not in the cache. -/
theorem C35_union_violated :
    let v := Virtual.user (some twoKinds.form) (some 2) (ok twoKinds) (some 0) "k"
    twoKinds.validity = ok () ∧ Honest twoKinds v ∧
    (session quietEnv v [([], .fields (.one "x"))] [] World.start).1.IsErr ∧
    (session quietEnv v [([(v, [])], .fields (.one "x"))] [] World.start).1
      = ok [.atom (.int 1), .atom (.bool true)] ∧
    (directOps quietEnv.same [.fields (.one "x")] twoKinds >>= Content.toList)
      = ok [.atom (.int 1), .atom (.bool true)] :=
  ⟨rfl, ⟨⟨_, _, _, _, rfl⟩, fun f hf => (by cases hf; rfl), fun n hn => (by cases hn; rfl)⟩,
    R.raises (by decide +kernel), R.lists (by decide +kernel), R.lists (by decide +kernel)⟩

/-- Records with two fields of the same name. -/
def sameNames : Content := .record {} (some ["x", "x"])
  [.numpy {} .int64 [.int 1], .numpy {} DType.bool [.bool true]] 1

/-- **C35 is false for records with two fields of the same name.** Their form is not equal to
itself, so that a lazy array with the right form can never be read. -/
theorem C35_names_violated :
    let v := Virtual.user (some sameNames.form) (some 1) (ok sameNames) (some 0) "k"
    sameNames.validity = ok () ∧ Honest sameNames v ∧
    (session quietEnv v [] [] World.start).1.IsErr ∧
    sameNames.toList = ok [.record [("x", .atom (.int 1)), ("x", .atom (.bool true))]] :=
  ⟨rfl, ⟨⟨_, _, _, _, rfl⟩, fun f hf => (by cases hf; rfl), fun n hn => (by cases hn; rfl)⟩,
    R.raises (by decide +kernel), rfl⟩

end Awk.Props
