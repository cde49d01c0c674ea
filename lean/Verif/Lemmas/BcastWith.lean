import Verif.Model.BcastWith
import Verif.Spec.BcastWith
import Verif.Lemmas.BroadcastApply
import Verif.Lemmas.Regular
/-
`broadcast_and_apply` with the function of its caller.
-/

namespace Awk
open R Spec

namespace Content

/-! ### The layouts -/

theorem Clear.anti {reg : Bool} {b : Nat} {c : Content} (h : Clear reg b c) :
    ∀ b', b' ≤ b → Clear reg b' c := by
  induction h with
  | zero c =>
    intro b' hb
    have : b' = 0 := by omega
    subst this; exact .zero c
  | @mk b c h _ ih =>
    intro b' hb
    cases b' with
    | zero => exact .zero c
    | succ b' =>
      refine .mk h (fun d hd => ih d hd _ ?_)
      split <;> omega

theorem Clear.here {reg : Bool} {b : Nat} {c : Content} (h : Clear reg (b + 1) c) :
    ClearNode reg c ∧ ∀ d ∈ c.children, Clear reg (if c.isListNode then b else b + 1) d := by
  cases h with
  | mk h hd => exact ⟨h, hd⟩

theorem cls_isListNode {c c' : Content} (h : c'.cls = c.cls) : c'.isListNode = c.isListNode := by
  cases c <;> cases c' <;> simp [cls] at h <;> rfl

theorem Clear.closed (reg : Bool) (z : Prop) : ClosedG z (Clear reg) where
  lazy {a idx c} _ h := by
    cases a with
    | zero => exact .zero _
    | succ a => exact .mk trivial (by simpa [children, isListNode] using h)
  node := by
    intro c' c hc hl hd a h
    cases h with
    | zero => exact .zero _
    | @mk b _ h0 hch =>
      refine .mk ?_ (fun d' hd' => ?_)
      · have hp := hl.params
        cases c' <;> cases c <;> simp [cls] at hc <;> simp only [ClearNode, Content.params] at h0 hp ⊢ <;>
          try (first | (rw [hp]; exact h0) | (rw [hp]; exact h0.2) | exact h0 |
            (obtain ⟨_, _, _, he⟩ := hl.reg _ _ _ _ rfl; cases he))
        case record.record p k cs n p' k' cs' n' =>
          obtain ⟨_, _, _, he⟩ := hl.keys _ _ _ _ rfl
          simp only [Content.record.injEq] at he
          obtain ⟨_, rfl, _, _⟩ := he
          have hw := hl.width
          simp only [children] at hw
          cases k' with
          | some k => trivial
          | none => simp only [] at h0 ⊢; omega
      · obtain ⟨d, hd1, hd2⟩ := hd d' hd'
        rw [cls_isListNode hc]
        exact hd2 _ (hch d hd1)

theorem Clear.fam (reg : Bool) : Fam reg (Clear reg) where
  closed := Clear.closed reg True
  numpy b _ _ := by
    cases b with
    | zero => exact .zero _
    | succ b => exact .mk trivial (by simp [children])
  wrap b _ _ h := by
    cases b with
    | zero => exact .zero _
    | succ b => exact .mk trivial (by simpa [children, isListNode] using h)
  option b c h ho := by
    have h2 := h.here.2
    cases c <;> simp only [isOption, Bool.false_eq_true] at ho <;>
      simpa [children, isListNode, inner] using h2
  indexed b p index c h := by simpa [children, isListNode] using h.here.2
  record b p keys cs length h := by
    refine ⟨by rintro rfl; exact h.here.1, fun d hd => ?_⟩
    have := h.here.2 d (by simpa [children] using hd)
    simpa [isListNode] using this
  listArray b p starts stops c h := ⟨h.here.1, by simpa [children, isListNode] using h.here.2⟩
  listOffset b p offsets c h := ⟨h.here.1, by simpa [children, isListNode] using h.here.2⟩
  regular b p c size zeros h := ⟨h.here.1.1, h.here.1.2, by simpa [children, isListNode] using h.here.2⟩
  union b p tags index cs h := h.here.1
  mkList b p offsets c hp h := .mk hp (by simpa [children, isListNode] using h)
  mono b c h := h.anti b (by omega)
  toJagged _ _ _ _ _ _ _ _ _ := .zero _

theorem Clear.of_all {reg : Bool} {c : Content} (h : AllNodes (ClearNode reg) c) :
    ∀ b, Clear reg b c := by
  induction h with
  | mk h0 hd ih =>
    intro b
    cases b with
    | zero => exact .zero _
    | succ b => exact .mk h0 (fun d hd => ih d hd _)

/-! ### `apply` -/

variable {W : Nat → Content → Prop} {b : Nat}

theorem regularToJagged_ok {reg : Bool} (hW : Fam reg W) {c c' : Content} (h : Binput W b c)
    (h1 : regularToJagged reg c = ok c') :
    Binput W b c' ∧ c'.len = c.len ∧ (∀ i, i < c.len → c'.valD i = c.valD i) ∧
      (reg = false → c' = c) ∧ (reg = true → ∀ p d size zeros, c' ≠ regular p d size zeros) := by
  have hsame : c' = c → (∀ p d size zeros, c ≠ regular p d size zeros) ∨ reg = false →
      Binput W b c' ∧ c'.len = c.len ∧ (∀ i, i < c.len → c'.valD i = c.valD i) ∧
      (reg = false → c' = c) ∧ (reg = true → ∀ p d size zeros, c' ≠ regular p d size zeros) := by
    rintro rfl hr
    refine ⟨h, rfl, fun _ _ => rfl, fun _ => rfl, fun ht => ?_⟩
    rcases hr with hr | hr
    · exact hr
    · rw [hr] at ht; cases ht
  cases c <;> first
    | exact hsame (by simpa [regularToJagged] using h1.symm) (.inl (by simp)) | skip
  case regular p d size zeros =>
    simp only [regularToJagged] at h1
    split at h1
    · rename_i hr
      obtain ⟨offs, e, p1, p2, p3⟩ := listParts_ok h.good (show (regular p d size zeros).isListNode = true from rfl)
      have he : c' = listOffset p offs e := by
        unfold toListOffset at h1
        rw [p1, bind_ok] at h1
        simpa [params] using h1.symm
      subst he
      obtain ⟨src, hs, hg⟩ := p2.src
      simp only [children, List.mem_singleton] at hs
      subst hs
      refine ⟨⟨by rw [p2.offs_eq]; exact good_offsTo p2.good p2.bound, ?_⟩, ?_, ?_, ?_, by simp⟩
      · cases b with
        | zero =>
          exact hW.toJagged hr _ _ _ _ h.nodes _ _
            (fun a ha => Gathered.closed hW.closed (h.good.child (by simp [children])) hg a ha)
        | succ b =>
          obtain ⟨_, r2, r3⟩ := hW.regular _ _ _ _ _ h.nodes
          exact hW.mkList _ _ _ _ r2
            (Gathered.closed hW.closed (h.good.child (by simp [children])) hg b r3)
      · rw [p2.offs_eq]; simp [len]
      · intro i hi
        rw [p2.offs_eq, valD_offsTo p2.good p2.bound hi]
        exact (p2.vals i hi).symm
      · intro hr'; rw [hr] at hr'; cases hr'
    · rename_i hr
      exact hsame (by simpa using h1.symm) (.inr (by simpa using hr))

theorem no_custom {reg : Bool} (hW : Fam reg W) {cs : List Content}
    (hb : ∀ c ∈ cs, Binput W (b + 1) c) {c : Content} (hc : c ∈ cs) (hj : c.isJagged = true) : c.hasCustom = false := by
  cases c <;> simp only [isJagged, Bool.false_eq_true] at hj
  case listArray p starts stops d =>
    have := (hW.listArray _ _ _ _ _ (hb _ hc).nodes).1
    simp [hasCustom, params, this]
  case listOffset p offsets d =>
    have := (hW.listOffset _ _ _ _ (hb _ hc).nodes).1
    simp [hasCustom, params, this]

variable {P Q : List Val → List Val → Prop} {k : Nat}

theorem stringBroadcast_ok {reg : Bool} (hW : Fam reg W) {c c' : Content} (h : Binput W (b + 1) c)
    (hf : c.isFlat = true) {L : Nat → Nat} (h1 : stringBroadcast (offsTo L c.len) c = ok c') :
    Binput W b c' ∧ c'.len = sumTo L c.len ∧ ∀ i, i < c.len →
      (∀ xs, c.valD i = .list xs → xs.length = L i) ∧
      ∀ k, k < L i → c'.valD (sumTo L i + k) = (c.valD i).elem k := by
  have hidx : ((List.range ((offsTo L c.len).length - 1)).map (fun (i : Nat) =>
      List.replicate ((offsTo L c.len)[i + 1]?.getD 0 - (offsTo L c.len)[i]?.getD 0).toNat (i : Int))).flatten
      = ((List.range c.len).map (fun (i : Nat) => List.replicate (L i) (i : Int))).flatten := by
    congr 1
    rw [offsTo_length, show c.len + 1 - 1 = c.len by omega]
    refine List.map_congr_left (fun i hi => ?_)
    have hi' : i < c.len := by simpa using hi
    congr 1
    have e1 := rd_eq_ok.mp (rd_offsTo (f := L) (n := c.len) (i := i) (by omega))
    have e2 := rd_eq_ok.mp (rd_offsTo (f := L) (n := c.len) (i := i + 1) (by omega))
    have e1' := e1.2
    have e2' := e2.2
    simp only [Int.toNat_natCast] at e1' e2'
    rw [e1', e2']
    simp only [Option.getD_some]
    rw [sumTo_succ]; omega
  unfold stringBroadcast at h1
  rw [hidx] at h1
  have hfl : (((List.range c.len).map
      (fun (i : Nat) => List.replicate (L i) (i : Int))).flatten).length = sumTo L c.len := by
    rw [flatten_map_length]; exact sumTo_congr (fun i _ => by simp)
  have hmem : ∀ j ∈ ((List.range c.len).map
      (fun (i : Nat) => List.replicate (L i) (i : Int))).flatten, 0 ≤ j ∧ j < c.len := by
    intro j hj
    simp only [List.mem_flatten, List.mem_map, List.mem_range, exists_exists_and_eq_and,
      List.mem_replicate] at hj
    obtain ⟨i, hi, _, rfl⟩ := hj
    omega
  have hg : (indexed {} (((List.range c.len).map
      (fun (i : Nat) => List.replicate (L i) (i : Int))).flatten) c).Good := by
    refine good_indexed.mpr ⟨h.good, ?_⟩
    intro j hj
    exact hmem _ (List.getElem_mem hj)
  obtain ⟨e, e1, e2, e3, e4, e5, e6⟩ := project_indexed hg
  rw [e1] at h1
  simp only [ok.injEq] at h1; subst h1
  refine ⟨Binput.gathered hW ⟨h.good, hW.mono _ _ h.nodes⟩ e2 e6, by rw [e4, hfl], fun i hi => ?_⟩
  obtain ⟨f1, f2, _⟩ := flat_elem h.good hf hi
  refine ⟨fun xs hx => absurd hx (f2 xs), fun k hk => ?_⟩
  have hmono := sumTo_mono (f := L) (show i + 1 ≤ c.len by omega)
  rw [sumTo_succ] at hmono
  have hlt : sumTo L i + k < (((List.range c.len).map
    (fun (i : Nat) => List.replicate (L i) (i : Int))).flatten).length := by omega
  have hget := flatten_map_get (fun (i : Nat) => List.replicate (L i) (i : Int)) hi (k := k)
    (by simpa using hk)
  rw [sumTo_congr (g := L) (fun i _ => by simp), List.getElem?_eq_getElem hlt] at hget
  simp only [List.getElem?_replicate, hk, if_true, Option.some.injEq] at hget
  rw [e5 _ hlt, valD_indexed hg hlt, hget, f1]
  simp

/-- The step for lists with different offsets. -/
theorem jaggedStepStrings_ok {reg : Bool} (hW : Fam reg W) {next : List Content → R (List Content)}
    {n : Nat} {cs outs : List Content}
    (hb : ∀ c ∈ cs, Binput W (b + 1) c) (hl : ∀ c ∈ cs, c.len = n)
    (hk : ∀ c ∈ cs, c.isJagged = true ∨ c.isFlat = true)
    (hnext : ∀ cs' outs', cs'.length = cs.length → (∀ c ∈ cs', Binput W b c) →
      next cs' = ok outs' → ∃ m, BOut P k m cs' outs')
    (hPQ : ListRule P Q cs.length k)
    (h : jaggedStepStrings next cs = ok outs) : BOut Q k n cs outs := by
  unfold jaggedStepStrings at h
  split at h
  · exact jaggedStep_ok hW hb hl hk hnext hPQ h
  · rename_i first hf
    have hj := List.find?_some hf
    have hm := List.mem_of_find?_eq_some hf
    simp only [Bool.and_eq_true] at hj
    replace hj := hj.1
    simp only [bind_eq_ok, ok.injEq] at h
    obtain ⟨offsets, ho, cs', hcs', outs', hn, rfl⟩ := h
    rw [compactOffsets_ok (hb _ hm) hj, hl _ hm] at ho
    simp only [ok.injEq] at ho; subst ho
    generalize first.lens = L at hcs'
    rw [mapR_forall₂] at hcs'
    have hstep := fa2_imp_mem hcs' (S := fun c c' => Binput W b c' ∧ c'.len = sumTo L n ∧ ∀ i, i < n →
      (∀ xs, c.valD i = .list xs → xs.length = L i) ∧
      ∀ k, k < L i → c'.valD (sumTo L i + k) = (c.valD i).elem k) (fun c hc c' h1 => by
        have hlc := hl c hc
        rw [← hlc] at h1
        rw [← hlc]
        split at h1
        · rename_i hcu
          refine stringBroadcast_ok hW (hb c hc) ?_ h1
          rcases hk c hc with hk | hk
          · rw [no_custom hW hb hc hk] at hcu; cases hcu
          · exact hk
        · exact toOffsets_ok hW (hb c hc) (hk c hc) (L := L) h1)
    obtain ⟨m, hbo⟩ := hnext cs' outs' hstep.length_eq.symm
      (fun c hc => (forall₂_mem hstep hc).choose_spec.2.1) hn
    have hmm : m = sumTo L n := by
      obtain ⟨c', hc', h1⟩ := fa2_left hstep hm
      rw [← hbo.len c' hc']; exact h1.2.1
    subst hmm
    have hmono : ∀ i, i < n → sumTo L i + L i ≤ sumTo L n := by
      intro i hi
      have := sumTo_mono (f := L) (show i + 1 ≤ n by omega)
      rw [sumTo_succ] at this; exact this
    refine hbo.lists (sumTo L) L hPQ hl (fun i hi => .inr (hmono i hi)) ?_ ⟨first, hm, ?_⟩
      (hstep.imp (fun _ _ h => h.2.2)) ?_
    · intro c hc i hi
      rcases hk c hc with hj | hf
      · obtain ⟨xs, hx⟩ := jagged_val hW (hb c hc) hj (by rw [hl c hc]; exact hi)
        rw [hx]; simp
      · exact (flat_elem (hb c hc).good hf (by rw [hl c hc]; exact hi)).2.2
    · exact fun i hi => jagged_val hW (hb _ hm) hj (by rw [hl _ hm]; exact hi)
    · rw [List.forall₂_map_right_iff]
      refine List.forall₂_same.mpr (fun o ho => ?_)
      obtain ⟨hg, hlo⟩ := hbo.good o ho
      refine ⟨good_offsTo hg (by omega), by simp [Content.len], fun i hi => ?_⟩
      rw [valD_offsTo hg (by omega) hi]
      rfl

/-- What the proof needs to know about the caller's function. -/
structure GetOk (W : Nat → Content → Prop) (get : Nat → List Content → R (Option (List Content)))
    (done : Nat → List Val → List Val → Prop) (go : Nat → List Val → Prop) (records : Bool) (w k : Nat) :
    Prop where
  stop : ∀ depth b cs outs n, cs.length = w → (∀ c ∈ cs, Binput W b c ∧ c.len = n) →
    get depth cs = ok (some outs) → BOut (done depth) k n cs outs
  null : ∀ depth cs vs, get depth cs = ok none → vs.length = w → Val.null ∈ vs → go depth vs
  go : ∀ depth b cs n, cs.length = w → (∀ c ∈ cs, Binput W (b + 1) c ∧ c.len = n) →
    get depth cs = ok none →
    (∀ c ∈ cs, c.isJagged = true ∨ c.isFlat = true) →
    (records = true ∨ ∃ c ∈ cs, c.isJagged = true) →
    ∀ i, i < n → go depth (cs.map (fun c => c.valD i))

variable {done : Nat → List Val → List Val → Prop} {go : Nat → List Val → Prop}

theorem BOut.imp {P Q : List Val → List Val → Prop} {k n : Nat} {cs outs : List Content}
    (h : BOut P k n cs outs)
    (hi : ∀ i, i < n → ∀ os, P (cs.map (fun c => c.valD i)) os → Q (cs.map (fun c => c.valD i)) os) :
    BOut Q k n cs outs := ⟨h.length, h.len, h.good, fun i hi' => hi i hi' _ (h.rows i hi')⟩

/-- The cases of `apply`. -/
theorem bcastSwitch_sound {a : BcastArgs} (hW : Fam a.jagged W)
    {get : Nat → List Content → R (Option (List Content))} {w : Nat} (hget : GetOk W get done go a.records w k)
    {next : Nat → List Content → R (List Content)} {depth n : Nat} {cs outs : List Content}
    (hw : cs.length = w) (hne : cs ≠ []) (hb : ∀ c ∈ cs, Binput W (b + 1) c)
    (hl : ∀ c ∈ cs, c.len = n) (hreg : ∀ c ∈ cs, ∀ p d size zeros, c ≠ regular p d size zeros)
    (hstay : get depth cs = ok none)
    (hnext : ∀ cs' outs', cs'.length = w → (∀ c ∈ cs', Binput W (b + 1) c) →
      next depth cs' = ok outs' → ∃ m, BOut (Applies done go k depth) k m cs' outs')
    (hdeep : ∀ cs' outs', cs'.length = w → (∀ c ∈ cs', Binput W b c) →
      next (depth + 1) cs' = ok outs' → ∃ m, BOut (Applies done go k (depth + 1)) k m cs' outs')
    (h : bcastSwitch a next depth cs = ok outs) : BOut (Applies done go k depth) k n cs outs := by
  unfold bcastSwitch at h
  split at h
  · rename_i hem
    rw [List.any_eq_true] at hem
    obtain ⟨c0, hc0, he0⟩ := hem
    have hn0 : n = 0 := by
      rw [← hl c0 hc0]
      cases c0 <;> first | rfl | cases he0
    subst hn0
    obtain ⟨m, hbo⟩ := hnext _ _ (by simpa using hw) (by
      intro d hd
      obtain ⟨c, hc, rfl⟩ := List.mem_map.mp hd
      cases c <;> first | exact hb _ hc | skip
      exact ⟨good_numpy _ _ _, hW.numpy _ _ _⟩) h
    have hm : m = 0 := by
      rw [← hbo.len _ (List.mem_map.mpr ⟨c0, hc0, rfl⟩)]
      cases c0 <;> first | rfl | cases he0
    subst hm
    exact ⟨hbo.length, hl, hbo.good, fun i hi => by omega⟩
  rename_i hem
  split at h
  · rw [bind_eq_ok] at h
    obtain ⟨cs', h1, h2⟩ := h
    rw [mapR_forall₂] at h1
    have hstep := fa2_imp_mem h1 (S := fun c c' => Binput W (b + 1) c' ∧ c'.len = n ∧
      ∀ i, i < n → c'.valD i = c.valD i) (fun c hc c' h => by
        have hsame : c = c' → Binput W (b + 1) c' ∧ c'.len = n ∧ ∀ i, i < n → c'.valD i = c.valD i := by
          rintro rfl; exact ⟨hb c hc, hl c hc, fun _ _ => rfl⟩
        cases c <;> first | exact hsame (by simpa using h) | skip
        case indexed p index d =>
          obtain ⟨e, e1, e2, e3, e4, e5, e6⟩ := project_indexed (hb _ hc).good
          simp only at h
          rw [e1] at h
          simp only [ok.injEq] at h; subst h
          have hln : index.length = n := hl _ hc
          exact ⟨Binput.gathered hW ⟨(hb _ hc).good.child (by simp [children]),
              hW.indexed _ _ _ _ (hb _ hc).nodes⟩ e2 e6, by omega,
            fun i hi => e5 i (by omega)⟩)
    obtain ⟨m, hbo⟩ := hnext _ _ (by rw [← hstep.length_eq]; exact hw)
      (fun c hc => (forall₂_mem hstep hc).choose_spec.2.1) h2
    have hm : m = n := by
      obtain ⟨c, hc⟩ := List.exists_mem_of_ne_nil cs hne
      obtain ⟨c', hc', h⟩ := fa2_left hstep hc
      rw [← hbo.len c' hc']; exact h.2.1
    subst hm
    exact hbo.of_same hl (hstep.imp (fun _ _ h => h.2.2))
  rename_i hix
  split at h
  · cases h
  rename_i hun
  split at h
  · refine optionStep_ok hW hb hl (fun cs' outs' h1 => hnext cs' outs' (h1.trans hw)) ?_ hne h
    intro vs hv hnull
    exact .null (hget.null depth cs vs hstay (by omega) hnull) hnull
  rename_i hopt
  have hk : ∀ c ∈ cs, c.isJagged = true ∨ c.isFlat = true := by
    intro c hc
    have h1 : c.isUnion = false := by
      cases hu : c.isUnion with
      | false => rfl
      | true => exact absurd (List.any_eq_true.mpr ⟨_, hc, hu⟩) hun
    have h2 : c.isOption = false := by
      cases hu : c.isOption with
      | false => rfl
      | true => exact absurd (List.any_eq_true.mpr ⟨_, hc, hu⟩) hopt
    have h3 := hreg c hc
    cases c <;> first | exact .inl rfl | exact .inr rfl | exact Bool.noConfusion h1 | exact Bool.noConfusion h2 | skip
    · exact absurd (List.any_eq_true.mpr ⟨_, hc, rfl⟩) hem
    · exact absurd rfl (h3 _ _ _ _)
    · exact absurd (List.any_eq_true.mpr ⟨_, hc, rfl⟩) hix
  have hgood : ∀ c ∈ cs, Binput W (b + 1) c ∧ c.len = n := fun c hc => ⟨hb c hc, hl c hc⟩
  have hgo := hget.go depth b cs n hw hgood hstay hk
  have hlist : ListRule (Applies done go k (depth + 1))
      (fun vs outs => go depth vs → Applies done go k depth vs outs) cs.length k :=
    fun vs outs n _ h1 h2 h3 h4 h5 h6 hg => .list hg n h1 h2 h3 h4 h5 h6
  have hrec : RecordRule (Applies done go k depth)
      (fun vs outs => go depth vs → Applies done go k depth vs outs) cs.length k :=
    fun vs outs names _ h1 h2 h3 h4 h5 h6 h7 h8 hg => .record hg names h1 h2 h3 h4 h5 h6 h7 h8
  split at h
  · rename_i hls
    replace hgo := hgo (.inr (by
      rw [List.any_eq_true] at hls
      obtain ⟨c, hc, h⟩ := hls
      rcases hk c hc with hk | hk
      · exact ⟨c, hc, hk⟩
      · cases c <;> first | exact Bool.noConfusion hk | exact Bool.noConfusion h))
    split at h
    · rename_i hnj
      exfalso
      rw [List.any_eq_true] at hls
      obtain ⟨c, hc, h⟩ := hls
      rw [List.all_eq_true] at hnj
      have := hnj c hc
      rcases hk c hc with hk | hk
      · rw [hk] at this; cases this
      · cases c <;> first | exact Bool.noConfusion hk | exact Bool.noConfusion h
    split at h
    · exact (jaggedStepStrings_ok hW hb hl hk
        (fun cs' outs' h1 => hdeep cs' outs' (h1.trans hw)) hlist h).imp (fun i hi os h => h (hgo i hi))
    · rename_i hs
      simp only [Bool.not_eq_false] at hs
      refine (sameStep_ok hW hb hl hne ?_ hs (fun cs' outs' h1 => hdeep cs' outs' (h1.trans hw))
        hlist h).imp (fun i hi os h => h (hgo i hi))
      intro c hc
      rcases hk c hc with hk | hk
      · exact hk
      · exfalso
        rw [allSameOffsets_flat hk cs none hc] at hs
        cases hs
  rename_i hls
  have hfl : ∀ c ∈ cs, c.isFlat = true := by
    intro c hc
    rcases hk c hc with h | h
    · exfalso
      apply hls
      refine List.any_eq_true.mpr ⟨c, hc, ?_⟩
      cases c <;> first | rfl | exact Bool.noConfusion h
    · exact h
  split at h
  · split at h
    · rename_i hr
      replace hgo := hgo (.inl hr)
      exact (recordStep_ok hW hb hl hfl (fun cs' outs' h1 => hnext cs' outs' (h1.trans hw)) hrec h).imp
        (fun i hi os h => h (hgo i hi))
    · cases h
  · cases h

/-- What `apply` returns is what the operation does to the broadcast inputs. -/
theorem bcastWith_sound {a : BcastArgs} (hW : Fam a.jagged W) (ha : a.right = true → a.jagged = false)
    {get : Nat → List Content → R (Option (List Content))} {w : Nat} (hget : GetOk W get done go a.records w k)
    (f : Nat) : ∀ (depth b : Nat) (cs outs : List Content), cs.length = w → cs ≠ [] →
    (∀ c ∈ cs, Binput W b c) →
    (f ≤ b ∨ (a.right = false ∧ ∃ D, depth ≤ D ∧ D ≤ depth + b ∧ ∀ cs, get D cs ≠ ok none)) →
    bcastWith a get f depth cs = ok outs → ∃ n, BOut (Applies done go k depth) k n cs outs := by
  induction f with
  | zero => intro depth b cs outs _ _ _ _ h; cases h
  | succ f ih =>
    intro depth b cs outs hw hne hb hbud h
    simp only [bcastWith, bind_eq_ok] at h
    obtain ⟨cs1, h1, h⟩ := h
    rw [mapR_forall₂] at h1
    have hstep := fa2_imp_mem h1 (fun c hc c' h => regularToJagged_ok hW (hb c hc) h)
    have hb1 : ∀ c ∈ cs1, Binput W b c := fun c hc => (forall₂_mem hstep hc).choose_spec.2.1
    have hright : (if a.right then rightBroadcast cs1 else cs1) = cs1 := by
      split
      · rename_i hr
        rcases hbud with hbud | hbud
        · obtain ⟨b, rfl⟩ : ∃ b', b = b' + 1 := ⟨b - 1, by omega⟩
          exact rightBroadcast_eq (ha hr ▸ hW) hb1
        · rw [hr] at hbud; cases hbud.1
      · rfl
    rw [hright] at h
    split at h
    · cases h
    rename_i hlen
    generalize (cs1.map len).headD 0 = n at hlen
    have hl1 : ∀ c ∈ cs1, c.len = n := by
      intro c hc
      apply Classical.byContradiction
      intro hne
      exact hlen (List.any_eq_true.mpr ⟨c, hc, by simpa using hne⟩)
    have hl : ∀ c ∈ cs, c.len = n := by
      intro c hc
      obtain ⟨c', hc', h2⟩ := fa2_left hstep hc
      rw [← h2.2.1]; exact hl1 c' hc'
    have hw1 : cs1.length = w := by rw [← hstep.length_eq]; exact hw
    have hne1 : cs1 ≠ [] := by
      rintro rfl
      cases hstep
      exact hne rfl
    suffices hs : BOut (Applies done go k depth) k n cs1 outs from
      ⟨n, hs.of_same hl (fa2_imp_mem hstep (fun c hc c' h2 i hi => h2.2.2.1 i (by rw [hl c hc]; exact hi)))⟩
    rw [bind_eq_ok] at h
    obtain ⟨r, hr, h⟩ := h
    cases r with
    | some outs' =>
      simp only [ok.injEq] at h; subst h
      exact (hget.stop depth b cs1 _ n hw1 (fun c hc => ⟨hb1 c hc, hl1 c hc⟩) hr).imp
        (fun i hi os h => .done h)
    | none =>
      simp only at h
      have hb0 : b ≠ 0 := by
        rintro rfl
        rcases hbud with hbud | ⟨_, D, h2, h3, h4⟩
        · omega
        · have : D = depth := by omega
          subst this
          exact h4 cs1 hr
      obtain ⟨b, rfl⟩ : ∃ b', b = b' + 1 := ⟨b - 1, by omega⟩
      refine bcastSwitch_sound hW hget hw1 hne1 hb1 hl1 ?_ hr
        (fun cs' outs' h1 h2 h3 => ih depth (b + 1) cs' outs' h1 ?_ h2 ?_ h3)
        (fun cs' outs' h1 h2 h3 => ih (depth + 1) b cs' outs' h1 ?_ h2 ?_ h3) h
      · intro c hc p d size zeros he
        obtain ⟨c0, hc0, h2⟩ := forall₂_mem hstep hc
        cases hj : a.jagged with
        | true => exact h2.2.2.2.2 hj p d size zeros he
        | false =>
          subst he
          have := (hW.regular _ _ _ _ _ (hb1 _ hc).nodes).1
          rw [hj] at this; cases this
      · rintro rfl; exact hne (List.length_eq_zero_iff.mp (by simpa using hw.trans h1.symm))
      · rcases hbud with hbud | hbud
        · exact .inl (by omega)
        · exact .inr hbud
      · rintro rfl; exact hne (List.length_eq_zero_iff.mp (by simpa using hw.trans h1.symm))
      · rcases hbud with hbud | ⟨h4, D, h5, h6, h7⟩
        · exact .inl (by omega)
        · refine .inr ⟨h4, D, ?_, by omega, h7⟩
          rcases Nat.lt_or_ge depth D with h | h
          · exact h
          · have : D = depth := by omega
            subst this
            exact absurd hr (h7 cs1)

end Content
end Awk
