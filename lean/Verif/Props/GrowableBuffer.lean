import Verif.Lemmas.GrowableBuffer
/-
Property theorems C02 and C03: the buffers of a builder and the snapshots that share their memory.
-/

namespace Awk
open R Heap

namespace Props

/-- C03: for every initial size of at least 1 and every growth factor greater than 1, any sequence of
operations on any number of buffers (new ones, appending, clearing, converting the items) succeeds,
so every read and write is inside of an allocated block, and each buffer holds exactly the items that
the operations have given it, in order. -/
theorem C03_buffers {α : Type} {o : BufOptions} (hinit : 1 ≤ o.initial) (hres : 1 < o.resize)
    (ops : List (BufOp α)) : ∃ s : BufState α, BufState.run o ⟨[], []⟩ ops = ok s ∧
      s.bufs.length = (ops.foldl Spec.apply []).length ∧
      ∀ (i : Nat) b xs, s.bufs[i]? = some b → (ops.foldl Spec.apply [])[i]? = some xs →
        b.length = xs.length ∧ view s.heap b.block b.length = ok xs := by
  obtain ⟨s, h1, h2, _⟩ := run_ok hinit hres inv_init ops
  refine ⟨s, h1, h2.length, fun i b xs hb hxs => ?_⟩
  have := h2.holds i b xs hb hxs
  exact ⟨this.length, by rw [this.length]; exact this.holds.view⟩

/-- C03: appending to one fresh buffer. -/
theorem C03_appends {α : Type} {o : BufOptions} (hinit : 1 ≤ o.initial) (hres : 1 < o.resize)
    (xs : List α) : ∃ h b, BufState.run o ⟨[], []⟩ (.create :: xs.map (.append 0)) = ok ⟨h, [b]⟩ ∧
      b.length = xs.length ∧ view h b.block b.length = ok xs := by
  obtain ⟨⟨h, bs⟩, h1, h2, h3⟩ := C03_buffers hinit hres (.create :: xs.map (BufOp.append 0))
  have hf : ∀ xs ys : List α, (xs.map (BufOp.append 0)).foldl Spec.apply [ys] = [ys ++ xs] := by
    intro xs
    induction xs with
    | nil => simp
    | cons x xs ih =>
      intro ys
      rw [List.map_cons, List.foldl_cons]
      refine (ih (ys ++ [x])).trans ?_
      simp
  have hf' : (BufOp.create :: xs.map (BufOp.append 0)).foldl Spec.apply [] = [xs] := hf xs []
  rw [hf'] at h2 h3
  match bs, h2 with
  | [b], _ => exact ⟨h, b, h1, h3 0 b xs rfl rfl⟩

/-- C03: growing from one item. -/
example : (1 : Int) ≤ (⟨1, 3/2⟩ : BufOptions).initial ∧ (1 : Rat) < (⟨1, 3/2⟩ : BufOptions).resize := by
  norm_num

/-- C03: the hypotheses are needed. Without an initial size the first item is written outside of the
block, whatever the growth factor; with a growth factor of 1 the first item that does not fit is. -/
theorem C03_hypotheses_needed (r : Rat) :
    BufState.run (α := Nat) ⟨0, r⟩ ⟨[], []⟩ [.create, .append 0 7] = ub ∧
    BufState.run (α := Nat) ⟨2, 1⟩ ⟨[], []⟩ [.create, .append 0 7, .append 0 8, .append 0 9] = ub := by
  constructor
  · simp [BufState.run, BufState.step, Buf.empty, Buf.append, malloc, Buf.setReserved, store, rd, wr]
  · simp [BufState.run, BufState.step, Buf.empty, Buf.append, malloc, Buf.setReserved, store, rd, wr]

/-- C02: a snapshot of a buffer, taken after any operations, shows the same items after any further
operations on the same or other buffers. -/
theorem C02_snapshot {α : Type} {o : BufOptions} (hinit : 1 ≤ o.initial) (hres : 1 < o.resize)
    (before after : List (BufOp α)) : ∃ s s' : BufState α,
      BufState.run o ⟨[], []⟩ before = ok s ∧ BufState.run o ⟨[], []⟩ (before ++ after) = ok s' ∧
      ∀ (i : Nat) b xs, s.bufs[i]? = some b → (before.foldl Spec.apply [])[i]? = some xs →
        view s.heap b.block b.length = ok xs ∧ view s'.heap b.block b.length = ok xs := by
  obtain ⟨s, h1, h2, _⟩ := run_ok hinit hres inv_init before
  obtain ⟨s', g1, _, g3⟩ := run_ok hinit hres h2 after
  refine ⟨s, s', h1, by rw [run_append, h1]; exact g1, fun i b xs hb hxs => ?_⟩
  have hh := h2.holds i b xs hb hxs
  rw [hh.length]
  refine ⟨hh.holds.view, ?_⟩
  obtain ⟨⟨n, hn⟩, _⟩ := g3 b.block xs ⟨⟨_, hh.holds⟩, fun j c hc he => by
    have := h2.distinct i j b c hb hc he.symm
    subst this
    rw [hb] at hc; cases hc
    rw [hh.length]⟩
  exact hn.view

end Props
end Awk
