import Verif.Model.Forth
import Verif.Lemmas.ForthOutput
/-
The operations on the data keep the stack, the inputs and the outputs within their bounds.
-/

namespace Awk.Forth
open Awk.R

variable {α : Type}

/-- The input is not absurdly long and its position is inside it. -/
def InBuf.Good (b : InBuf) : Prop := 0 ≤ b.pos ∧ b.pos ≤ b.data.length ∧ b.data.length < 2 ^ 62

/-- The stack, the inputs and the outputs are within their bounds. -/
structure DataOK (m : Machine α) (d : Data α) : Prop where
  stack : d.stack.length ≤ m.stackMax
  vars : d.vars.length = m.numVars
  inputs : d.inputs.length = m.numInputs
  input : ∀ b ∈ d.inputs, b.Good
  outputs : d.outputs.length = m.outTypes.length
  output : ∀ b ∈ d.outputs, ∃ xs, OutRep b xs ∧ b.cells ≠ []

/-- What an operation must establish. -/
def Keeps (m : Machine α) (x : R (Data α × Err)) : Prop := Sat x fun r => DataOK m r.1

theorem wrap_small {bits : Nat} {x : Int} (hb : 1 ≤ bits) (h1 : -2 ^ (bits - 1) ≤ x)
    (h2 : x < 2 ^ (bits - 1)) : wrap bits x = x := by
  unfold wrap
  obtain ⟨n, rfl⟩ : ∃ n, bits = n + 1 := ⟨bits - 1, by omega⟩
  simp only [Nat.add_sub_cancel] at h1 h2
  have e : ((2 ^ (n + 1) : Nat) : Int) = 2 * 2 ^ n := by push_cast; ring
  apply Int.bmod_eq_of_le
  · rw [e]; omega
  · rw [e]; omega

theorem wrap64_small {x : Int} (h1 : -2 ^ 63 ≤ x) (h2 : x < 2 ^ 63) : wrap 64 x = x :=
  wrap_small (by omega) (by simpa using h1) (by simpa using h2)

namespace DataOK

variable {m : Machine α} {d : Data α}

theorem fine (h : DataOK m d) : Keeps m d.fine := h

theorem fail (h : DataOK m d) (e : Err) : Keeps m (d.fail e) := h

/-- A stack that is not longer. -/
theorem withStack (h : DataOK m d) {s : List Int} (hs : s.length ≤ m.stackMax) :
    DataOK m { d with stack := s } := ⟨hs, h.vars, h.inputs, h.input, h.outputs, h.output⟩

theorem push (h : DataOK m d) (x : Int) : Keeps m (d.push m x) := by
  unfold Data.push
  split
  · exact h.fail _
  · refine (h.withStack ?_).fine
    have := h.stack
    simp; omega

theorem pop1 (h : DataOK m d) {k : Int → Data α → R (Data α × Err)}
    (hk : ∀ x r, d.stack = x :: r → DataOK m { d with stack := r } →
      Keeps m (k x { d with stack := r })) : Keeps m (d.pop1 k) := by
  unfold Data.pop1
  split
  · rename_i x r he
    refine hk x r he (h.withStack ?_)
    have := h.stack
    rw [he] at this; simp at this; omega
  · exact h.fail _

theorem pop2 (h : DataOK m d) {k : Int → Int → List Int → R (Data α × Err)}
    (hk : ∀ x y r, r.length + 2 ≤ m.stackMax → Keeps m (k x y r)) : Keeps m (d.pop2 k) := by
  unfold Data.pop2
  split
  · rename_i y x r he
    refine hk x y r ?_
    have := h.stack
    rw [he] at this; simpa using this
  · exact h.fail _

theorem op1 (h : DataOK m d) (f : Int → Int) : Keeps m (d.op1 m f) := by
  refine h.pop1 fun x r he hr => (hr.withStack ?_).fine
  have := h.stack
  rw [he] at this; simpa using this

theorem op2 (h : DataOK m d) (f : Int → Int → Int) : Keeps m (d.op2 m f) := by
  refine h.pop2 fun x y r hr => (h.withStack ?_).fine
  simp; omega

theorem setInput (h : DataOK m d) {n : Int} {b : InBuf} (hb : b.Good) :
    DataOK m { d with inputs := d.inputs.set n.toNat b } := by
  refine ⟨h.stack, h.vars, by simpa using h.inputs, ?_, h.outputs, h.output⟩
  intro b' hb'
  rcases List.mem_or_eq_of_mem_set hb' with hb' | rfl
  · exact h.input b' hb'
  · exact hb

theorem getInput (h : DataOK m d) {n : Int} (h0 : 0 ≤ n) (h1 : n < m.numInputs) :
    ∃ b, rd d.inputs n = ok b ∧ b.Good := by
  rw [rd_ok h0 (by rw [h.inputs]; exact h1)]
  exact ⟨_, rfl, h.input _ (List.getElem_mem _)⟩

theorem onInput (h : DataOK m d) {n : Int} (h0 : 0 ≤ n) (h1 : n < m.numInputs)
    {f : InBuf → InBuf × Err} (hf : ∀ b : InBuf, b.Good → (f b).1.Good) :
    Keeps m (d.onInput n f) := by
  obtain ⟨b, hb, hg⟩ := h.getInput h0 h1
  unfold Data.onInput
  rw [hb, bind_ok]
  exact h.setInput (hf b hg)

theorem getOutput (h : DataOK m d) {n : Int} (h0 : 0 ≤ n) (h1 : n < m.outTypes.length) :
    ∃ b, rd d.outputs n = ok b ∧ ∃ xs, OutRep b xs ∧ b.cells ≠ [] := by
  rw [rd_ok h0 (by rw [h.outputs]; exact h1)]
  exact ⟨_, rfl, h.output _ (List.getElem_mem _)⟩

theorem onOutput (h : DataOK m d) {n : Int} (h0 : 0 ≤ n) (h1 : n < m.outTypes.length)
    {f : OutBuf α → R (OutBuf α × Err)}
    (hf : ∀ b xs, OutRep b xs → b.cells ≠ [] →
      Sat (f b) fun r => ∃ xs, OutRep r.1 xs ∧ r.1.cells ≠ []) : Keeps m (d.onOutput n f) := by
  obtain ⟨b, hb, xs, hg, hc⟩ := h.getOutput h0 h1
  unfold Data.onOutput
  rw [hb, bind_ok]
  refine (hf b xs hg hc).bind fun r hr => ?_
  refine ⟨h.stack, h.vars, h.inputs, h.input, by simpa using h.outputs, ?_⟩
  intro b' hb'
  rcases List.mem_or_eq_of_mem_set hb' with hb' | rfl
  · exact h.output b' hb'
  · exact hr

end DataOK

theorem InBuf.Good.seek {b : InBuf} (h : b.Good) (x : Int) : (b.seek x).1.Good := by
  unfold InBuf.seek
  split
  · exact h
  · exact ⟨by simp only; omega, by simp only; omega, h.2.2⟩

theorem InBuf.Good.skip {b : InBuf} (h : b.Good) (x : Int) : (b.skip x).1.Good := by
  unfold InBuf.skip
  simp only
  split
  · exact h
  · exact ⟨by simp only; omega, by simp only; omega, h.2.2⟩

/-- Reading a sensible number of bytes. -/
theorem InBuf.Good.read {b : InBuf} (h : b.Good) {n : Int} (h0 : 0 ≤ n) (h1 : n ≤ 2 ^ 62) :
    (b.read n).1.Good ∧ ((b.read n).2.1 = .none → (b.read n).2.2 = b.pos ∧
      b.pos + n ≤ b.data.length ∧ (b.read n).1 = { b with pos := b.pos + n }) ∧
    ((b.read n).2.1 ≠ .none → (b.read n).1 = b) := by
  obtain ⟨g1, g2, g3⟩ := h
  have hw : wrap 64 (b.pos + n) = b.pos + n := wrap64_small (by omega) (by omega)
  unfold InBuf.read
  simp only [hw]
  split
  · exact ⟨⟨g1, g2, g3⟩, by simp, by simp⟩
  · exact ⟨⟨by simp only; omega, by simp only; omega, g3⟩, fun _ => ⟨rfl, by omega, rfl⟩, by simp⟩

theorem keeps_out {m : Machine α} (hr : 1 < m.resize) {t : DType} {b : OutBuf α} {xs : List α}
    (h : OutRep b xs) (hb : b.cells ≠ []) (op : OutOp α) (hop : ∀ n, op = .rewind n → 0 ≤ n) :
    Sat (op.run m.resize (m.conv.ofInt t 0) (m.conv.add t) b)
      fun r => ∃ xs, OutRep r.1 xs ∧ r.1.cells ≠ [] := by
  obtain ⟨b', h1, h2, h3⟩ := OutOp.run_rep hr (zero := m.conv.ofInt t 0) (add := m.conv.add t) h hb
    op hop
  rw [h1]
  exact ⟨_, h2, h3⟩

theorem keeps_quotient (m : Machine α) (a b : Int) : Sat (quotient m a b) fun _ => True := by
  unfold quotient; split <;> simp

theorem keeps_remainder (m : Machine α) (a b : Int) : Sat (remainder m a b) fun _ => True := by
  unfold remainder; split <;> simp

theorem keeps_plainOp {m : Machine α} {d : Data α} (h : DataOK m d) (code : Int) :
    Keeps m (plainOp m code d) := by
  have hs := h.stack
  unfold plainOp
  split
  all_goals first
    | exact h.fine
    | exact h.op1 _
    | exact h.op2 _
    | exact h.push _
    | exact h.pop1 fun _ _ _ hr => hr.fine
    | skip
  · split
    · exact h.push _
    · exact h.fail _
  · exact h.pop2 fun x y r hr => (h.withStack (by simp; omega)).fine
  · exact h.pop2 fun x y r hr => h.push _
  · split
    · rename_i he
      rw [he] at hs
      exact (h.withStack (by simpa using hs)).fine
    · exact h.fail _
  · exact h.pop2 fun x y r hr => (h.withStack (by simp; omega)).fine
  · unfold Data.pop2
    split
    · rename_i y x r he
      split
      · exact h.fail _
      · refine (h.withStack ?_).fine
        rename_i hne
        rw [he] at hne hs
        simp at hne hs ⊢
        omega
    · exact h.fail _
  · refine h.pop2 fun x y r hr => ?_
    split
    · exact (h.withStack (by simp; omega)).fail _
    · exact (keeps_quotient m x y).bind fun q _ => (h.withStack (by simp; omega)).fine
  · refine h.pop2 fun x y r hr => ?_
    split
    · exact (h.withStack (by simp; omega)).fail _
    · exact (keeps_remainder m x y).bind fun q _ => (h.withStack (by simp; omega)).fine
  · refine h.pop2 fun x y r hr => ?_
    split
    · exact h.fail _
    · exact (keeps_quotient m x y).bind fun q _ => (keeps_remainder m x y).bind fun p _ =>
        (h.withStack (by simp; omega)).fine

/-- The operand refers to a variable, input or output that exists. -/
def ArgOK (m : Machine α) (c n : Int) : Prop :=
  (11 ≤ c ∧ c ≤ 13 → 0 ≤ n ∧ n < m.numVars) ∧ (14 ≤ c ∧ c ≤ 18 → 0 ≤ n ∧ n < m.numInputs) ∧
    (19 ≤ c ∧ c ≤ 23 → 0 ≤ n ∧ n < m.outTypes.length)

theorem keeps_argOp {m : Machine α} (hr : 1 < m.resize) {d : Data α} (h : DataOK m d)
    {code n : Int} (ha : ArgOK m code n)
    (hrew : code = 23 → ∀ x r, d.stack = x :: r → 0 ≤ x) : Keeps m (argOp m code n d) := by
  obtain ⟨a1, a2, a3⟩ := ha
  unfold argOp
  split
  · exact h.push _
  · obtain ⟨h0, h1⟩ := a1 (by omega)
    refine h.pop1 fun x r _ hd => ?_
    simp only
    rw [wr_ok h0 (by rw [h.vars]; exact h1), bind_ok]
    exact ⟨hd.stack, by simpa using hd.vars, hd.inputs, hd.input, hd.outputs, hd.output⟩
  · obtain ⟨h0, h1⟩ := a1 (by omega)
    refine h.pop1 fun x r _ hd => ?_
    simp only
    rw [rd_ok h0 (by rw [h.vars]; exact h1), bind_ok, wr_ok h0 (by rw [h.vars]; exact h1), bind_ok]
    exact ⟨hd.stack, by simpa using hd.vars, hd.inputs, hd.input, hd.outputs, hd.output⟩
  · obtain ⟨h0, h1⟩ := a1 (by omega)
    split
    · exact h.fail _
    · rw [rd_ok h0 (by rw [h.vars]; exact h1), bind_ok]
      exact h.push _
  · obtain ⟨h0, h1⟩ := a2 (by omega)
    obtain ⟨b, hb, _⟩ := h.getInput h0 h1
    split
    · exact h.fail _
    · rw [hb]; exact h.push _
  · obtain ⟨h0, h1⟩ := a2 (by omega)
    obtain ⟨b, hb, _⟩ := h.getInput h0 h1
    split
    · exact h.fail _
    · rw [hb]; exact h.push _
  · obtain ⟨h0, h1⟩ := a2 (by omega)
    obtain ⟨b, hb, _⟩ := h.getInput h0 h1
    split
    · exact h.fail _
    · rw [hb]; exact h.push _
  · obtain ⟨h0, h1⟩ := a2 (by omega)
    exact h.pop1 fun x r _ hd => hd.onInput h0 h1 fun b hb => hb.seek x
  · obtain ⟨h0, h1⟩ := a2 (by omega)
    exact h.pop1 fun x r _ hd => hd.onInput h0 h1 fun b hb => hb.skip x
  · obtain ⟨h0, h1⟩ := a3 (by omega)
    refine h.pop1 fun x r _ hd => hd.onOutput h0 h1 fun b xs hb hc => ?_
    rw [rd_ok h0 h1, bind_ok]
    exact keeps_out hr hb hc _ (by simp)
  · obtain ⟨h0, h1⟩ := a3 (by omega)
    refine h.pop1 fun x r _ hd => hd.onOutput h0 h1 fun b xs hb hc => ?_
    rw [rd_ok h0 h1, bind_ok]
    exact keeps_out hr hb hc _ (by simp)
  · obtain ⟨h0, h1⟩ := a3 (by omega)
    exact h.pop1 fun x r _ hd => hd.onOutput h0 h1 fun b xs hb hc =>
      keeps_out (t := .bool) hr hb hc (.dup x) (by simp)
  · obtain ⟨h0, h1⟩ := a3 (by omega)
    obtain ⟨b, hb, _⟩ := h.getOutput h0 h1
    split
    · exact h.fail _
    · rw [hb]; exact h.push _
  · obtain ⟨h0, h1⟩ := a3 (by omega)
    refine h.pop1 fun x r he hd => hd.onOutput h0 h1 fun b xs hb hc => ?_
    refine keeps_out (t := .bool) hr hb hc (.rewind x) ?_
    rintro n ⟨⟩
    exact hrew rfl _ _ he
  · exact h.push _
  · exact h.fine
  · exact h.fine

theorem keeps_repeatN {m : Machine α} {f : Nat → Data α → R (Data α × Err)} (P : Data α → Prop)
    (n : Nat) : ∀ (i : Nat) (d : Data α), DataOK m d → P d →
    (∀ j, i ≤ j → j < i + n → ∀ d, DataOK m d → P d → Sat (f j d) fun r => DataOK m r.1 ∧ P r.1) →
    Sat (repeatN f i n d) fun r => DataOK m r.1 ∧ P r.1 := by
  induction n with
  | zero => intro i d h hp _; exact ⟨h, hp⟩
  | succ n ih =>
    intro i d h hp hf
    refine (hf i (le_refl _) (by omega) d h hp).bind fun r hr => ?_
    split
    · exact ih (i + 1) r.1 hr.1 hr.2 fun j h1 h2 => hf j (by omega) (by omega)
    · exact hr

theorem keeps_deliver {m : Machine α} (hr : 1 < m.resize) {d : Data α} (h : DataOK m d)
    {out : Option Int} (ho : ∀ o, out = some o → 0 ≤ o ∧ o < m.outTypes.length) (a b : Int) :
    Sat (deliver m out a b d) fun r => DataOK m r.1 ∧ r.1.inputs = d.inputs := by
  have key : Keeps m (deliver m out a b d) := by
    unfold deliver
    split
    · exact h.push _
    · rename_i o
      obtain ⟨h0, h1⟩ := ho o rfl
      refine h.onOutput h0 h1 fun b xs hb hc => ?_
      rw [rd_ok h0 h1, bind_ok]
      exact keeps_out (t := .bool) hr hb hc (.writeOne _) (by simp)
  have hin : ∀ r, deliver m out a b d = ok r → r.1.inputs = d.inputs := by
    intro r he
    unfold deliver at he
    split at he
    · unfold Data.push Data.fail Data.fine at he
      split at he <;> cases he <;> rfl
    · unfold Data.onOutput at he
      simp only [bind_eq_ok] at he
      obtain ⟨_, _, _, _, he⟩ := he
      cases he
      rfl
  unfold Keeps at key
  generalize hx : deliver m out a b d = x at key
  cases x with
  | ok r => exact ⟨key, hin r hx⟩
  | err e => trivial
  | ub => exact key

theorem keeps_varint {m : Machine α} {inNum : Int} (h0 : 0 ≤ inNum) (h1 : inNum < m.numInputs)
    (n : Nat) : ∀ (shift result : Nat) (d : Data α), DataOK m d →
    Sat (varint inNum n shift result d) fun r => DataOK m r.1 := by
  induction n with
  | zero =>
    intro shift result d h
    obtain ⟨b, hb, hg⟩ := h.getInput h0 h1
    unfold varint
    rw [hb, bind_ok]
    exact h.setInput (hg.read (n := 1) (by omega) (by omega)).1
  | succ n ih =>
    intro shift result d h
    obtain ⟨b, hb, hg⟩ := h.getInput h0 h1
    obtain ⟨g1, g2, _⟩ := hg.read (n := 1) (by omega) (by omega)
    unfold varint
    rw [hb, bind_ok]
    simp only
    split
    · rename_i hn
      obtain ⟨e1, e2, _⟩ := g2 hn
      rw [e1, rd_ok hg.1 (by omega), bind_ok]
      split
      · exact ih _ _ _ (h.setInput g1)
      · exact h.setInput g1
    · exact h.setInput g1

/-- One byte more: the bytes that are left decrease. -/
theorem keeps_nbitByte {m : Machine α} {inNum : Int} (h0 : 0 ≤ inNum) (h1 : inNum < m.numInputs)
    (flip : Bool) {d : Data α} (h : DataOK m d) {b : InBuf} (hb : rd d.inputs inNum = ok b) :
    ∃ r, nbitByte inNum flip d = ok r ∧ DataOK m r.1 ∧
      (r.2.1 = .none → rd r.1.inputs inNum = ok { b with pos := b.pos + 1 } ∧
        b.pos + 1 ≤ b.data.length) := by
  obtain ⟨b', hb', hg⟩ := h.getInput h0 h1
  rw [hb] at hb'
  cases hb'
  obtain ⟨g1, g2, g3⟩ := hg.read (n := 1) (by omega) (by omega)
  unfold nbitByte
  rw [hb, bind_ok]
  simp only
  split
  · rename_i hn
    obtain ⟨e1, e2, e3⟩ := g2 hn
    rw [e1, rd_ok hg.1 (by omega), bind_ok]
    refine ⟨_, rfl, h.setInput g1, fun _ => ⟨?_, e2⟩⟩
    simp only [e3]
    rw [rd_ok h0 (by simp [h.inputs]; exact h1)]
    simp
  · rename_i hn
    exact ⟨_, rfl, h.setInput g1, fun he => absurd he hn⟩

/-- The loop over the fields ends and stays within the bounds. -/
theorem keeps_nbitLoop {m : Machine α} (hr : 1 < m.resize) {inNum : Int} (h0 : 0 ≤ inNum)
    (h1 : inNum < m.numInputs) (flip : Bool) {width : Nat} (hw : 1 ≤ width) {out : Option Int}
    (ho : ∀ o, out = some o → 0 ≤ o ∧ o < m.outTypes.length) (fuel : Nat) :
    ∀ (wl wr word : Nat) (items : Int) (d : Data α) (b : InBuf), DataOK m d →
      rd d.inputs inNum = ok b → wr ≤ wl →
      2 * (wl - wr) + 17 * (b.data.length - b.pos) + wr < fuel →
      Keeps m (nbitLoop m inNum flip width out fuel wl wr word items d) := by
  induction fuel with
  | zero =>
    intro wl wr word items d b h hb hle hf
    obtain ⟨b', hb', hg⟩ := h.getInput h0 h1
    rw [hb] at hb'; cases hb'
    have := hg.2.1
    omega
  | succ fuel ih =>
    intro wl wr word items d b h hb hle hf
    unfold nbitLoop
    split
    · exact h.fine
    · split
      · exact ih _ _ _ _ _ b h hb (by omega) (by omega)
      · split
        · refine (keeps_deliver hr h ho _ _).bind fun r hr' => ?_
          split
          · exact ih _ _ _ _ _ b hr'.1 (by rw [hr'.2]; exact hb) (by omega) (by omega)
          · exact hr'.1
        · obtain ⟨r, e1, e2, e3⟩ := keeps_nbitByte h0 h1 flip h hb
          rw [e1, bind_ok]
          split
          · rename_i hn
            obtain ⟨e4, e5⟩ := e3 hn
            exact ih _ _ _ _ _ _ e2 e4 (by omega) (by simp only; omega)
          · exact e2

theorem keeps_nbit {m : Machine α} (hr : 1 < m.resize) {inNum : Int} (h0 : 0 ≤ inNum)
    (h1 : inNum < m.numInputs) (flip : Bool) {width : Nat} (hw : 1 ≤ width) {out : Option Int}
    (ho : ∀ o, out = some o → 0 ≤ o ∧ o < m.outTypes.length) (items : Int) {d : Data α}
    (h : DataOK m d) : Keeps m (nbit m inNum flip width out items d) := by
  unfold nbit
  split
  · exact h.fine
  · obtain ⟨b, hb, hg⟩ := h.getInput h0 h1
    obtain ⟨r, e1, e2, e3⟩ := keeps_nbitByte h0 h1 flip h hb
    rw [hb, bind_ok, e1, bind_ok]
    split
    · rename_i hn
      obtain ⟨e4, e5⟩ := e3 hn
      refine keeps_nbitLoop hr h0 h1 flip hw ho _ _ _ _ _ _ _ e2 e4 (by omega) ?_
      have := hg.1
      simp only
      omega
    · exact e2

theorem formatOf_size {f : Nat} {k : Kind} {size : Nat} (h : formatOf f = some (k, size)) :
    1 ≤ size ∧ size ≤ 8 := by
  unfold formatOf at h
  split at h <;> cases h <;> decide

theorem bytes_ok {b : InBuf} {start : Int} {n : Nat} (h0 : 0 ≤ start)
    (h1 : start + n ≤ b.data.length) : ∃ bs, b.bytes start n = ok bs := by
  unfold InBuf.bytes
  refine ⟨_, mapN_ok' (fun i => b.data.getD (start + i).toNat 0) fun i hi => ?_⟩
  rw [rd_ok (by omega) (by omega)]
  simp [List.getD_eq_getElem?_getD, List.getElem?_eq_getElem (show (start + i).toNat < b.data.length by omega)]

theorem keeps_readOp {m : Machine α} (hr : 1 < m.resize) {inNum : Int} (h0 : 0 ≤ inNum)
    (h1 : inNum < m.numInputs) {format : Nat} {big : Bool} {num width : Int} {out : Option Int}
    (hw : format = 16 → 1 ≤ width)
    (ho : ∀ o, out = some o → 0 ≤ o ∧ o < m.outTypes.length) (hn0 : 0 ≤ num) (hn1 : num < 2 ^ 58)
    {d : Data α} (h : DataOK m d) : Keeps m (readOp m format big num width inNum out d) := by
  unfold readOp
  split
  · refine (keeps_repeatN (fun _ => True) _ _ _ h trivial fun j _ _ d hd _ => ?_).mono
      fun r hr => hr.1
    refine (keeps_varint h0 h1 _ _ _ _ hd).bind fun r hr' => ?_
    split
    · exact (keeps_deliver hr hr' ho _ _).mono fun r hr => ⟨hr.1, trivial⟩
    · exact ⟨hr', trivial⟩
  split
  · refine (keeps_repeatN (fun _ => True) _ _ _ h trivial fun j _ _ d hd _ => ?_).mono
      fun r hr => hr.1
    refine (keeps_varint h0 h1 _ _ _ _ hd).bind fun r hr' => ?_
    split
    · exact (keeps_deliver hr hr' ho _ _).mono fun r hr => ⟨hr.1, trivial⟩
    · exact ⟨hr', trivial⟩
  split
  · rename_i hf
    have := hw hf
    exact keeps_nbit hr h0 h1 big (by omega) ho num h
  · split
    · exact h.fine
    · rename_i k size hk
      obtain ⟨s1, s2⟩ := formatOf_size hk
      obtain ⟨b, hb, hg⟩ := h.getInput h0 h1
      have hmul : 0 ≤ num * size ∧ num * size ≤ 2 ^ 61 := by
        constructor
        · positivity
        · have : num * size ≤ num * 8 := by nlinarith
          omega
      rw [hb, bind_ok]
      simp only
      rw [wrap64_small (by omega) (by omega)]
      obtain ⟨g1, g2, g3⟩ := hg.read (n := num * size) (by omega) (by omega)
      split
      · rename_i hn
        obtain ⟨e1, e2, e3⟩ := g2 hn
        have hd := h.setInput (n := inNum) g1
        rw [e1]
        have hbytes : ∀ j : Nat, j < num.toNat → ∃ bs, b.bytes (b.pos + j * size) size = ok bs := by
          intro j hj
          have hj' : (j : Int) + 1 ≤ num := by omega
          have : (j : Int) * size + size ≤ num * size := by nlinarith
          have := hg.1
          exact bytes_ok (by positivity) (by omega)
        split
        · refine (keeps_repeatN (fun _ => True) _ _ _ hd trivial fun j _ hj d hd _ => ?_).mono
            fun r hr => hr.1
          obtain ⟨bs, hbs⟩ := hbytes j (by omega)
          rw [hbs, bind_ok]
          exact (hd.push _).mono fun r hr => ⟨hr, trivial⟩
        · rename_i o
          obtain ⟨o0, o1⟩ := ho o rfl
          refine hd.onOutput o0 o1 fun c xs hc hcc => ?_
          rw [rd_ok o0 o1, bind_ok, if_neg (by omega)]
          rw [mapN_ok' (fun j => match b.bytes (b.pos + j * size) size with
            | .ok bs => bs | _ => []) fun j hj => by
              obtain ⟨bs, hbs⟩ := hbytes j hj
              simp [hbs], bind_ok]
          generalize hxs : List.map _ (List.map _ (List.range num.toNat)) = ys
          have hlen : ys.length = num.toNat := by rw [← hxs]; simp
          split
          · rename_i hnum
            subst hnum
            match ys, hlen with
            | [y], _ =>
              have hy : mapN 1 (fun i => rd [y] i) = ok [y] := rfl
              rw [hy, bind_ok]
              exact keeps_out (t := .bool) hr hc hcc (.writeOne y) (by simp)
          · exact keeps_out (t := .bool) hr hc hcc (.writeMany ys) (by simp)
      · exact h.setInput g1

end Awk.Forth
