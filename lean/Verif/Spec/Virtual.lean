import Verif.Model.Virtual
/-
Specification for lazy arrays.
-/

namespace Awk
open R

mutual
/-- There is no bit mask in the form, and the fields of every record have different names. -/
def Form.Settled : Form → Prop
  | .empty .. => True
  | .numpy .. => True
  | .regular _ c _ _ => c.Settled
  | .listArray _ _ _ c _ => c.Settled
  | .listOffset _ _ c _ => c.Settled
  | .indexed _ _ c _ => c.Settled
  | .indexedOption _ _ c _ => c.Settled
  | .byteMasked _ _ _ c _ => c.Settled
  | .bitMasked .. => False
  | .unmasked _ c _ => c.Settled
  | .record _ keys cs _ => (∀ ks, keys = some ks → ks.Nodup ∧ ks.length = cs.length) ∧
      Form.SettledAll cs
  | .union _ _ _ cs _ => Form.SettledAll cs
/-- Every member is settled. -/
def Form.SettledAll : List Form → Prop
  | [] => True
  | c :: cs => c.Settled ∧ Form.SettledAll cs
end

/-- The lazy array that a user makes from a function that gives `c`: its promises, if any, are
those of `c`. -/
structure Honest (c : Content) (v : Virtual) : Prop where
  made : ∃ form length cache key, v = .user form length (ok c) cache key
  form : ∀ f, v.form = some f → f = c.form
  length : ∀ n, v.length = some n → n = c.len

/-- Lazy arrays that users made: two of them that use the same entry of the same cache have the
same generator. (Keys that are not chosen by the user are all different, `ArrayCache::newkey`.) -/
structure SeparateKeys (arrays : List Virtual) : Prop where
  made : ∀ v ∈ arrays, ∃ form length result cache key, v = .user form length result cache key
  keys : ∀ f n x c k f' n' x', Virtual.user f n x (some c) k ∈ arrays →
    Virtual.user f' n' x' (some c) k ∈ arrays → f = f' ∧ n = n' ∧ x = x'

/-- An operation that applies to an array: bounds are not the number that stands for a missing
bound, the array has the fields that are asked for (and each of them once), and `array[i:j:1]`
counts as `array[i:j]`. -/
def LazyOp.Ok (op : LazyOp) (c : Content) : Prop :=
  match op with
  | .range start stop => GoodArg start ∧ GoodArg stop
  | .steps start stop step => GoodArg start ∧ GoodArg stop ∧ step ≠ 1 ∧ step ≠ kSliceNone
  | .positions idx => idx.length < kSliceNone
  | .newaxis => True
  | .fields s => Content.HasFields [s] c ∧ ∀ names, s = .many names → names.Nodup

/-- The operations apply, each to the result of those before. -/
def Applies (same : Content → Content → Bool) : List LazyOp → Content → Prop
  | [], _ => True
  | op :: ops, c => op.Ok c ∧ ∀ c', op.direct same c = ok c' → Applies same ops c'

/-- The caches are empty. -/
def World.start : World := ⟨fun _ _ => none, 0⟩

/-- Other uses: some lazy arrays are sliced and read, in any order, and the results (errors included)
are thrown away. -/
abbrev Uses := List (Virtual × List LazyOp)

/-- What other uses do to the caches. -/
def history (e : Env) : Uses → World → World
  | [], w => w
  | (v, ops) :: rest, w => history e rest (lazyList e v ops w).2

/-- Operations one on the result of the other, with other uses before each of them. -/
def runBetween (e : Env) : List (Uses × LazyOp) → Out → Act Out
  | [], out => Act.lift (ok out)
  | (uses, op) :: rest, out => fun w =>
    (op.on e out).andThen (fun out' => runBetween e rest out') (history e uses w)

/-- `ak.to_list` of the result of operations on a lazy array, with other uses before each of the
operations and before the result is read. -/
def session (e : Env) (v : Virtual) (steps : List (Uses × LazyOp)) (last : Uses) :
    Act (List Val) :=
  (runBetween e steps (.lazy v)).andThen fun out w =>
    (out.read e).andThen (fun c => Act.lift c.toList) (history e last w)

/-- The other uses are of arrays in the list. -/
def Uses.Within (arrays : List Virtual) (uses : Uses) : Prop := ∀ p ∈ uses, p.1 ∈ arrays

end Awk
