import Verif.Lemmas.MergeShape
/-
What a merge returns (`Out`), what may be assumed of the recursive calls (`RecOk`), and the merge of
NumpyArrays.
-/

namespace Awk
open R

/-- The type without the options around it. -/
def Ty.base : Ty → Ty
  | .opt _ _ t => t.base
  | t => t

/-- The options around the base type have the parameters `k`. -/
def Ty.chain (k : ArrKind × Option String) : Ty → Prop
  | .opt k' _ t => k' = k ∧ t.chain k
  | _ => True

theorem Ty.base_ne_opt : ∀ (t : Ty) (k : ArrKind × Option String) (o : Bool) (t' : Ty), t.base ≠ .opt k o t'
  | .opt _ _ t, k, o, t' => by simp only [Ty.base]; exact base_ne_opt t k o t'
  | .unknown _, _, _, _ => by simp [Ty.base]
  | .leaf _ _, _, _, _ => by simp [Ty.base]
  | .list _ _, _, _, _ => by simp [Ty.base]
  | .tuple _ _, _, _, _ => by simp [Ty.base]
  | .record _ _, _, _, _ => by simp [Ty.base]

namespace Content

/-- The node is an EmptyArray. -/
def isEmptyNode : Content → Bool
  | empty _ => true
  | _ => false

/-- Neither an option or indexed node nor an EmptyArray nor a union. -/
def Plain (c : Content) : Prop :=
  c.isIndirectNode = false ∧ c.isUnion = false ∧ c.isEmptyNode = false

theorem OfType.key {t : Ty} {c : Content} (h : OfType t c) : c.params.key = t.key := by
  cases h <;> first | assumption | rfl

theorem OfType.plain_iff {c : Content} (hc : c.Plain) : ∀ t : Ty,
    OfType t c ↔ t.chain c.params.key ∧ OfType t.base c
  | .opt k o t => by
    simp only [Ty.chain, Ty.base, and_assoc]
    rw [← OfType.plain_iff hc t]
    constructor
    · intro h
      cases h with
      | empty => simp [Plain, isEmptyNode] at hc
      | union => simp [Plain, isUnion] at hc
      | opt h => simp [hc.1] at h
      | plain _ h => exact ⟨rfl, h⟩
    · rintro ⟨rfl, h⟩; exact .plain hc.1 h
  | .unknown _ => by simp [Ty.chain, Ty.base]
  | .leaf _ _ => by simp [Ty.chain, Ty.base]
  | .list _ _ => by simp [Ty.chain, Ty.base]
  | .tuple _ _ => by simp [Ty.chain, Ty.base]
  | .record _ _ => by simp [Ty.chain, Ty.base]

theorem OfType.indirect {t : Ty} {c : Content} (h : OfType t c) (hc : c.isIndirectNode = true) :
    ∃ t', t = .opt c.params.key c.isOption t' ∧ ∀ d ∈ c.children, OfType t' d := by
  cases h with
  | empty => simp [isIndirectNode, isOption] at hc
  | union => simp [isIndirectNode, isOption] at hc
  | leaf => simp [isIndirectNode, isOption] at hc
  | tuple => simp [isIndirectNode, isOption] at hc
  | record => simp [isIndirectNode, isOption] at hc
  | list h => cases c <;> simp [isIndirectNode, isOption, isListNode] at hc h
  | opt _ h => exact ⟨_, rfl, h⟩
  | plain h => simp [hc] at h

theorem OfType.of_opt {k : ArrKind × Option String} {o : Bool} {t : Ty} {c : Content}
    (h : OfType (.opt k o t) c) (hp : c.Plain) : OfType t c := by
  cases h with
  | empty => simp [Plain, isEmptyNode] at hp
  | union => simp [Plain, isUnion] at hp
  | opt h => simp [hp.1] at h
  | plain _ h => exact h

/-- A result has the type of the inputs, if it has their base type. -/
theorem OfType.lift {t : Ty} {c m : Content} (h : OfType t c) (hc : c.Plain) (hm : m.Plain)
    (hk : m.params.key = c.params.key) (hb : OfType t.base m) : OfType t m := by
  rw [plain_iff hc] at h
  rw [plain_iff hm, hk]
  exact ⟨h.1, hb⟩

/-- All the elements, one array after the other. -/
def flat (cs : List Content) : List Val := (cs.map cv).flatten

@[simp] theorem flat_nil : flat [] = [] := rfl
@[simp] theorem flat_cons (c : Content) (cs : List Content) : flat (c :: cs) = c.cv ++ flat cs := by
  simp [flat]
@[simp] theorem flat_append (cs ds : List Content) : flat (cs ++ ds) = flat cs ++ flat ds := by
  simp [flat]

theorem flat_length (cs : List Content) : (flat cs).length = totalLen cs := by
  simp [flat, totalLen, List.length_flatten, Function.comp_def]

theorem sizeAll_append (cs ds : List Content) : sizeAll (cs ++ ds) = sizeAll cs + sizeAll ds := by
  simp [sizeAll_eq]

theorem length_le_sizeAll (cs : List Content) : cs.length ≤ sizeAll cs := by
  induction cs with
  | nil => simp
  | cons c cs ih => simp only [List.length_cons, sizeAll]; have := size_pos c; omega

theorem totalLen_cons (c : Content) (cs : List Content) : totalLen (c :: cs) = c.len + totalLen cs := by
  simp [totalLen]

/-- The arrays can be merged. -/
def Ins (nu : Without) (t : Ty) (cs : List Content) : Prop := ∀ c ∈ cs, Input nu c ∧ OfType t c

/-- `m` is a merge of `cs`. -/
structure Out (nu : Without) (t : Ty) (cs : List Content) (m : Content) : Prop where
  input : Input nu m
  type : OfType t m
  cv : m.cv = flat cs
  size : m.size ≤ sizeAll cs

theorem Out.len {nu : Without} {t : Ty} {cs : List Content} {m : Content} (h : Out nu t cs m) :
    m.len = totalLen cs := by
  rw [← cv_length, h.cv, flat_length]

/-- The measure of the recursion. -/
def mu (cs : List Content) : Nat := sizeAll cs * (sizeAll cs + 1) + cs.length

theorem mu_lt_size {cs ds : List Content} (h : sizeAll cs < sizeAll ds) : mu cs < mu ds := by
  have h1 := length_le_sizeAll cs
  unfold mu
  have : sizeAll cs * (sizeAll cs + 1) + sizeAll cs ≤ sizeAll ds * (sizeAll ds + 1) - 1 := by
    obtain ⟨k, hk⟩ : ∃ k, sizeAll ds = sizeAll cs + 1 + k := ⟨sizeAll ds - sizeAll cs - 1, by omega⟩
    rw [hk]
    have : (sizeAll cs + 1 + k) * (sizeAll cs + 1 + k + 1)
        = sizeAll cs * (sizeAll cs + 1) + sizeAll cs + (1 + (1+k) * (sizeAll cs + 1) + k * (sizeAll cs + 1 + k + 1)
        + (sizeAll cs - sizeAll cs)) + (0) := by
      rw [Nat.sub_self]; ring
    omega
  have : 0 < sizeAll ds * (sizeAll ds + 1) := Nat.mul_pos (by omega) (by omega)
  omega

theorem mu_lt_length {cs ds : List Content} (h : sizeAll cs ≤ sizeAll ds)
    (hl : cs.length < ds.length) : mu cs < mu ds := by
  unfold mu
  have := Nat.mul_le_mul h (Nat.succ_le_succ h)
  simp only [Nat.succ_eq_add_one] at this
  omega

/-- The recursive calls on smaller arguments are right. -/
def RecOk (nu : Without) (n : Nat) (rec : Content → List Content → R Content) : Prop :=
  ∀ t self others, Ins nu t (self :: others) → mu (self :: others) < n →
    (rec self others).Tot nu.union (Out nu t (self :: others))

theorem Ins.tail {nu : Without} {t : Ty} {c : Content} {cs : List Content} (h : Ins nu t (c :: cs)) :
    Ins nu t cs := fun d hd => h d (List.mem_cons_of_mem _ hd)
theorem Ins.head {nu : Without} {t : Ty} {c : Content} {cs : List Content} (h : Ins nu t (c :: cs)) :
    Input nu c ∧ OfType t c := h c List.mem_cons_self
theorem Ins.sub {nu : Without} {t : Ty} {cs ds : List Content} (h : Ins nu t ds)
    (hs : ∀ c ∈ cs, c ∈ ds) : Ins nu t cs := fun d hd => h d (hs d hd)

/-! ### NumpyArrays -/

/-- The data of a NumpyArray. -/
def numpyPart : Content → Option (Params × DType × List Atom)
  | numpy p d data => some (p, d, data)
  | _ => none

theorem numpyParts_ok {cs : List Content}
    (h : ∀ c ∈ cs, c.isEmptyNode = true ∨ ∃ x, c.numpyPart = some x) :
    numpyParts cs = ok (cs.filterMap numpyPart) := by
  induction cs with
  | nil => rfl
  | cons c cs ih =>
    have ih := ih (fun d hd => h d (List.mem_cons_of_mem _ hd))
    have hc := h c List.mem_cons_self
    cases c <;> simp [isEmptyNode, numpyPart] at hc
    · simp only [numpyParts, ih, numpyPart, List.filterMap_cons]
    · simp only [numpyParts, ih, bind_ok, numpyPart, List.filterMap_cons]

theorem numpyParts_flat {cs : List Content}
    (h : ∀ c ∈ cs, c.isEmptyNode = true ∨ ∃ x, c.numpyPart = some x) :
    flat cs = ((cs.filterMap numpyPart).flatMap (·.2.2)).map (fun a => .atom a.canon) := by
  induction cs with
  | nil => rfl
  | cons c cs ih =>
    have ih := ih (fun d hd => h d (List.mem_cons_of_mem _ hd))
    have hc := h c List.mem_cons_self
    cases c <;> simp [isEmptyNode, numpyPart] at hc
    · simp only [flat_cons, ih, numpyPart, List.filterMap_cons, cv_empty, List.nil_append]
    · simp only [flat_cons, ih, numpyPart, List.filterMap_cons, cv_numpy, List.flatMap_cons,
        List.map_append]

theorem fill_numpy {next : DType} {g : DType → Prop} [DecidablePred g] {e : String}
    {parts : List (Params × DType × List Atom)} (hg : ∀ x ∈ parts, g x.2.1) {done rest : List Atom}
    (hr : rest.length = (parts.map (fun x => x.2.2.length)).sum) :
    foldR (fun (st : List Atom × Nat) part =>
      if ¬ g part.2.1 then err e
      else
        NumpyArray_fill next st.1 st.2 part.2.2 part.2.2.length >>= fun out =>
        ok (out, st.2 + part.2.2.length)) (done ++ rest, done.length) parts
      = ok (done ++ (parts.flatMap (·.2.2)).map (·.convert next),
          (done ++ (parts.flatMap (·.2.2)).map (·.convert next)).length) := by
  induction parts generalizing done rest with
  | nil =>
    simp only [List.map_nil, List.sum_nil, List.length_eq_zero_iff] at hr
    subst hr
    simp [foldR]
  | cons x parts ih =>
    simp only [List.map_cons, List.sum_cons] at hr
    rw [foldR_cons]
    dsimp only
    rw [if_neg (by simpa using hg x List.mem_cons_self), NumpyArray_fill_ok (by omega), bind_ok,
      bind_ok]
    have := ih (fun y hy => hg y (List.mem_cons_of_mem _ hy))
      (done := done ++ x.2.2.map (·.convert next)) (rest := rest.drop x.2.2.length)
      (by simp; omega)
    rw [show done.length + x.2.2.length = (done ++ x.2.2.map (·.convert next)).length by simp, this]
    simp

theorem fill_complex {next : DType} {g : DType → Prop} [DecidablePred g] {e : String}
    {parts : List (Params × DType × List Atom)} (hg : ∀ x ∈ parts, g x.2.1)
    (hc : ∀ x ∈ parts, x.2.1.isComplex = true) (hn : next.isComplex = true) {done rest : List Atom}
    (hr : rest.length = (parts.map (fun x => x.2.2.length)).sum) :
    ∃ k, foldR (fun (st : List Atom × Nat) part =>
      if ¬ g part.2.1 then err e
      else if next.isComplex then fillComplex next st part.2.1 part.2.2
      else
        NumpyArray_fill next st.1 st.2 part.2.2 part.2.2.length >>= fun out =>
        ok (out, st.2 + part.2.2.length)) (done ++ rest, done.length * 2) parts
      = ok (done ++ (parts.flatMap (·.2.2)).map (·.convert next), k) := by
  induction parts generalizing done rest with
  | nil =>
    simp only [List.map_nil, List.sum_nil, List.length_eq_zero_iff] at hr
    subst hr
    exact ⟨_, by simp [foldR]; rfl⟩
  | cons x parts ih =>
    simp only [List.map_cons, List.sum_cons] at hr
    obtain ⟨k, hk⟩ := ih (fun y hy => hg y (List.mem_cons_of_mem _ hy))
      (fun y hy => hc y (List.mem_cons_of_mem _ hy))
      (done := done ++ x.2.2.map (·.convert next)) (rest := rest.drop x.2.2.length)
      (by simp; omega)
    refine ⟨k, ?_⟩
    rw [foldR_cons]
    dsimp only
    rw [if_neg (by simpa using hg x List.mem_cons_self), if_pos hn, fillComplex,
      if_pos (hc x List.mem_cons_self), NumpyArray_fill_complex, if_pos (by omega),
      Nat.mul_div_cancel _ (by omega), NumpyArray_fill_ok (by omega), bind_ok, bind_ok]
    rw [show done.length * 2 + x.2.2.length * 2 = (done ++ x.2.2.map (·.convert next)).length * 2 by
      simp; omega, hk]
    simp

theorem numpy_plain (p : Params) (d : DType) (data : List Atom) : (numpy p d data).Plain := by
  simp [Plain, isIndirectNode, isOption, isUnion, isEmptyNode]

theorem ofType_numpy {b : Ty} (hb : ∀ k o t, b ≠ .opt k o t) {p : Params} {d : DType}
    {data : List Atom} (h : OfType b (numpy p d data)) : b = .leaf p.key d.kind := by
  cases h with
  | leaf => rfl
  | list h => simp [isListNode] at h
  | opt h => simp [isIndirectNode, isOption] at h
  | plain => exact absurd rfl (hb _ _ _)

theorem sizeAll_pos_of_mem {c : Content} {cs : List Content} (h : c ∈ cs) : c.size ≤ sizeAll cs := by
  induction cs with
  | nil => simp at h
  | cons d cs ih =>
    simp only [sizeAll]
    rcases List.mem_cons.mp h with rfl | h
    · omega
    · have := ih h; omega

/-- Arrays of the base type other than EmptyArrays and unions are plain. -/
theorem plain_or {t : Ty} {c : Content} (h : c.endsHead = false) :
    c.isEmptyNode = true ∨ c.Plain := by
  cases c <;> simp_all [endsHead, isEmptyNode, Plain, isIndirect, isUnion, isIndirectNode, isOption]

theorem mergeNumpy_ok {nu : Without} {t : Ty} {p : Params} {d : DType} {data : List Atom}
    {hs : List Content} (hi : Ins nu t (numpy p d data :: hs))
    (he : ∀ c ∈ hs, c.endsHead = false) :
    ∃ m, mergeNumpy p d (numpy p d data :: hs) = ok m ∧ Out nu t (numpy p d data :: hs) m ∧ m.Plain := by
  have hb := ((OfType.plain_iff (numpy_plain p d data) t).mp hi.head.2).2
  have hbe := ofType_numpy (Ty.base_ne_opt t) hb
  -- every head is empty or a NumpyArray of the same kind
  have hall : ∀ c ∈ numpy p d data :: hs, c.isEmptyNode = true ∨ ∃ q e dat, c = numpy q e dat ∧
      q.key = p.key ∧ e.kind = d.kind := by
    intro c hc
    have hct := (hi c hc).2
    have hend : c.endsHead = false := by
      rcases List.mem_cons.mp hc with rfl | hc
      · simp [endsHead, isIndirect, isUnion]
      · exact he c hc
    rcases plain_or (t := t) hend with h | h
    · exact .inl h
    · have h2 := ((OfType.plain_iff h t).mp hct).2
      rw [hbe] at h2
      right
      generalize hb' : Ty.leaf p.key d.kind = b' at h2
      cases h2 with
      | empty => simp [Plain, isEmptyNode] at h
      | union => simp [Plain, isUnion] at h
      | leaf =>
        simp only [Ty.leaf.injEq] at hb'
        exact ⟨_, _, _, rfl, hb'.1.symm, hb'.2.symm⟩
      | _ => cases hb'
  have hn : ∀ c ∈ numpy p d data :: hs, c.isEmptyNode = true ∨ ∃ x, c.numpyPart = some x := by
    intro c hc
    rcases hall c hc with h | ⟨q, e, dat, rfl, _⟩
    · exact .inl h
    · exact .inr ⟨_, rfl⟩
  have hparts : ∀ x ∈ (numpy p d data :: hs).filterMap numpyPart, x.1.key = p.key ∧
      x.2.1.kind = d.kind ∧ (p.arr = .byte ∨ p.arr = .char → x.2.1 = .uint8) ∧
      (¬ (p.arr = .byte ∨ p.arr = .char) → x.2.1.isComplex = d.isComplex) := by
    intro x hx
    obtain ⟨c, hc, hcx⟩ := List.mem_filterMap.mp hx
    rcases hall c hc with h | ⟨q, e, dat, rfl, h1, h2⟩
    · cases c <;> simp [isEmptyNode] at h; simp [numpyPart] at hcx
    · simp only [numpyPart, Option.some.injEq] at hcx
      subst hcx
      have := (hi _ hc).1.nodes.here
      have h0 := hi.head.1.nodes.here
      simp only [MergeNode] at this h0
      have hk : q.arr = p.arr := by simp [Params.key] at h1; exact h1.1
      refine ⟨h1, h2, fun ha => this.1 (by rw [hk]; exact ha.symm), fun ha => ?_⟩
      by_cases hd : d.kind = .number
      · have i1 := this.2 (by rw [hk]; exact fun h => ha h.symm) (h2.trans hd)
        have i2 := h0.2 (fun h => ha h.symm) hd
        rw [Bool.eq_iff_iff, DType.isComplex_iff, DType.isComplex_iff]
        exact i1.trans i2.symm
      · rw [DType.complex_kind d hd, DType.complex_kind e (by rw [h2]; exact hd)]
  have hkey : (((numpy p d data :: hs).filterMap numpyPart).foldl (fun q part => q.merge part.1) p).key
      = p.key := Params.foldl_merge_key (fun x hx => (hparts x hx).1)
  unfold mergeNumpy
  rw [numpyParts_ok hn, bind_ok]
  dsimp only
  have hfl := numpyParts_flat hn
  generalize hP : (numpy p d data :: hs).filterMap numpyPart = parts at *
  have hlen : (allocAtoms ((parts.map (fun part => part.2.2.length)).sum)).length
      = (parts.map (fun part => part.2.2.length)).sum := by simp [allocAtoms]
  have fin : ∀ next : DType, next.kind = d.kind → (p.arr = .char ∨ p.arr = .byte → next = .uint8) →
      (¬ (p.arr = .char ∨ p.arr = .byte) → next.isComplex = d.isComplex) →
      Out nu t (numpy p d data :: hs)
        (numpy (parts.foldl (fun q part => q.merge part.1) p) next
          ((parts.flatMap (·.2.2)).map (·.convert next))) := by
    intro next hk hu hcx
    refine ⟨⟨good_numpy _ _ _, .mk ?_ (by simp [children])⟩, ?_, ?_, ?_⟩
    · simp only [MergeNode]
      have : (parts.foldl (fun q part => q.merge part.1) p).arr = p.arr := by
        simp [Params.key] at hkey; exact hkey.1
      have h0 := hi.head.1.nodes.here
      simp only [MergeNode] at h0
      rw [this]
      exact ⟨hu, fun ha hn => by
        rw [← DType.isComplex_iff, hcx ha, DType.isComplex_iff]; exact h0.2 ha (hk ▸ hn)⟩
    · refine hi.head.2.lift (numpy_plain _ _ _) (numpy_plain _ _ _) hkey ?_
      rw [hbe, ← hkey, ← hk]
      exact .leaf
    · rw [cv_numpy, hfl, List.map_map]
      apply List.map_congr_left
      intro a _
      simp [Atom.canon_convert]
    · simp only [size]
      have := sizeAll_pos_of_mem (c := numpy p d data) (cs := numpy p d data :: hs) List.mem_cons_self
      simpa [size] using this
  split
  · rename_i ha
    have := fill_numpy (next := .uint8) (g := fun x => x = .uint8)
      (e := "not modelled: characters that are not uint8") (parts := parts)
      (fun x hx => (hparts x hx).2.2.1 ha) (done := []) hlen
    simp only [List.nil_append, List.length_nil] at this
    refine ⟨numpy _ .uint8 _, ?_, fin .uint8 ?_ (fun _ => rfl) (fun h => absurd ha.symm h), numpy_plain _ _ _⟩
    · rw [this, bind_ok]
    · have := hi.head.1.nodes.here
      simp only [MergeNode] at this
      rw [this.1 ha.symm]
  · rename_i ha
    obtain ⟨h1, _, h3⟩ := DType.fold_promote (l := parts) (f := fun x => x.2.1) (d := d)
      (fun x hx => (hparts x hx).2.1)
    have h4 := DType.fold_complex (l := parts) (f := fun x => x.2.1) (d := d)
      (fun x hx => (hparts x hx).2.2.2 ha)
    have hout := fin _ h1 (fun h => absurd h.symm ha) (fun _ => h4)
    generalize hnx : parts.foldl (fun e part => e.promote part.2.1) d = next at *
    cases hcn : next.isComplex with
    | true =>
      obtain ⟨k, this⟩ := fill_complex (next := next) (g := fun x => x ∈ next.fillsFrom)
        (e := "dtype not in {…}") (parts := parts) h3
        (fun x hx => ((hparts x hx).2.2.2 ha).trans (h4.symm.trans hcn)) hcn (done := []) hlen
      simp only [List.nil_append, List.length_nil, Nat.zero_mul, hcn] at this
      refine ⟨numpy _ _ _, ?_, hout, numpy_plain _ _ _⟩
      simp only
      rw [this, bind_ok]
    | false =>
      have := fill_numpy (next := next) (g := fun x => x ∈ next.fillsFrom)
        (e := "dtype not in {…}") (parts := parts) h3 (done := []) hlen
      simp only [List.nil_append, List.length_nil] at this
      refine ⟨numpy _ _ _, ?_, hout, numpy_plain _ _ _⟩
      simp only [Bool.false_eq_true, if_false]
      rw [this, bind_ok]

end Content
end Awk
