import Verif.Lemmas.BuilderStep
/-
The commands of tuples and records.
-/

namespace Awk
open R Spec
open Content (pk uk UOk)

namespace Builder

variable {utf8 : Bool} {kinds : List Kind} {cap : Nat → Nat}

theorem stepNth_eq {cs : List Builder} {i : Nat} {c : Builder} {op : Op} (h : cs[i]? = some c) :
    stepNth cap cs i op = step cap c op >>= fun c' => ok (cs.set i c') := by
  induction cs generalizing i with
  | nil => simp at h
  | cons d ds ih =>
    cases i with
    | zero =>
      simp only [List.getElem?_cons_zero, Option.some.injEq] at h
      subst h
      simp [stepNth]
    | succ i =>
      rw [List.getElem?_cons_succ] at h
      simp only [stepNth]
      rw [if_neg (by omega), show ((i + 1 : Nat) : Int) - 1 = i by omega, ih h, bind_assoc]
      simp

theorem fillNulls_sim {cs : List Builder} {len : Nat} {D : Nat → List Val} {hyp : Prop}
    (h : ∀ (i : Nat) c, cs[i]? = some c → Rep utf8 kinds c (D i) .idle ∧ len ≤ (D i).length ∧
      Sim utf8 kinds cap .null c (D i) .idle)
    (hh : hyp → ∀ i, i < cs.length → (D i).length ≤ len + 1) :
    (fillNulls cap len cs).Tot hyp (fun cs' => cs'.length = cs.length ∧
      (∀ i, i < cs.length → (D i).length ≤ len + 1) ∧
      ∀ (i : Nat) c', cs'[i]? = some c' →
        Rep utf8 kinds c' (D i ++ if (D i).length = len then [.null] else []) .idle) := by
  induction cs generalizing D with
  | nil => exact .ok ⟨rfl, by simp, by simp⟩
  | cons c cs ih =>
    simp only [fillNulls]
    obtain ⟨h1, h2, h3⟩ := h 0 c rfl
    have first : (if c.length = (len : Int) then step cap c .null else ok c).Tot hyp (fun c' =>
        Rep utf8 kinds c' (D 0 ++ if (D 0).length = len then [.null] else []) .idle) := by
      rw [h1.length_eq]
      by_cases hl : (D 0).length = len
      · rw [if_pos (by omega), if_pos hl]
        refine h3.mono (fun _ => ⟨⟨_, rfl⟩, trivial⟩) (fun c' hc => ?_)
        obtain ⟨out, g1, g2, _⟩ := hc
        simp only [feed, opVal] at g1
        cases g1
        exact g2
      · rw [if_neg (by omega), if_neg hl, List.append_nil]
        exact .ok h1
    refine first.bind (fun c' hc => ?_)
    rw [hc.length_eq]
    by_cases hle : (D 0).length ≤ len + 1
    · rw [if_neg (by
        by_cases hl : (D 0).length = len
        · simp [hl]
        · simp [hl]; omega)]
      refine (ih (D := fun i => D (i + 1)) (fun i d hd => h (i + 1) d (by simpa using hd))
        (fun hy i hi => hh hy (i + 1) (by simpa using hi))).bind (fun cs' hcs => ?_)
      refine .ok ⟨by simp [hcs.1], fun i hi => ?_, fun i d hd => ?_⟩
      · cases i with
        | zero => exact hle
        | succ i => exact hcs.2.1 i (by simpa using hi)
      · cases i with
        | zero => simp at hd; subst hd; exact hc
        | succ i => exact hcs.2.2 i d (by simpa using hd)
    · rw [if_pos (by
        rw [if_neg (by omega)]
        simp; omega)]
      exact .err (fun hy => hle (hh hy 0 (by simp)))

theorem single_ok {l : List Val} {v : Val} :
    single l = ok v ↔ (l ++ if l.length = 0 then [.null] else []) = [v] := by
  match l with
  | [] => simp [single, eq_comm]
  | [w] => simp [single]
  | _ :: _ :: _ => simp [single]

theorem single_le {l : List Val} : IsOk (single l) ↔ l.length ≤ 1 := by
  match l with
  | [] => simp [single, IsOk]
  | [w] => simp [single, IsOk]
  | _ :: _ :: _ => simp [single, IsOk]

/-- The field that `cur` selects, as `nextindex_`. -/
theorem idleAt_none {cs : List Builder} : idleAt cs (-1) = ok true := rfl

theorem idleAt_some {cs : List Builder} {i : Nat} {c : Builder} {items : List Val} {sub : Part}
    (h : cs[i]? = some c) (hr : Rep utf8 kinds c items sub) : idleAt cs i = ok sub.isIdle := by
  unfold idleAt activeAt
  rw [if_neg (by omega), rd_eq_ok.mpr ⟨by omega, by simpa using h⟩]
  simp [hr.active_eq]

theorem step_tuple {cs : List Builder} {len next : Int} {op : Op} (h1 : ∀ i, op ≠ .index i)
    (h2 : op ≠ .endTuple) : ∃ e, step cap (tuple cs len true next) op =
      if next = -1 then err e
      else stepNth cap cs next op >>= fun cs => ok (tuple cs len true next) := by
  cases op with
  | index i => exact absurd rfl (h1 i)
  | endTuple => exact absurd rfl h2
  | beginTuple n => exact ⟨_, by simp only [step]; simp; rfl⟩
  | _ => exact ⟨_, by simp only [step]; rfl⟩

theorem feed_tuple {fields : List (List Val)} {cur : Option Nat} {sub : Part} {op : Op}
    (h : sub.isIdle = false ∨ (∀ i, op ≠ .index i) ∧ op ≠ .endTuple) :
    feed op (.tuple fields cur sub) = match cur with
      | none => err "no field has been chosen"
      | some i => feed op sub >>= fun out => match out with
        | .emit v => ok (.stay (.tuple (giveAt fields i v) cur .idle))
        | .stay p => ok (.stay (.tuple fields cur p)) := by
  cases hs : sub.isIdle with
  | false => simp only [feed, hs, Bool.false_eq_true, if_false]; rfl
  | true =>
    simp only [hs, Bool.true_eq_false, false_or] at h
    simp only [feed, hs, if_true]
    cases op with
    | index i => exact absurd rfl (h.1 i)
    | endTuple => exact absurd rfl h.2
    | _ => rfl

theorem tupleIdle_sim {op : Op} (hp : Plain utf8 kinds op) {cs : List Builder}
    {rows : List (List Val)} {next : Int} (hk : .tuple cs.length ∈ kinds)
    (hrows : ∀ r ∈ rows, r.length = cs.length)
    (hcs : ∀ (i : Nat) c, cs[i]? = some c →
      Rep utf8 kinds c (rows.map (fun r => r[i]?.getD .null)) .idle) :
    Sim utf8 kinds cap op (tuple cs rows.length false next) (rows.map .tuple) .idle := by
  have hr := Rep.tupleIdle (next := next) hk hrows hcs
  have other : op ≠ .null → opKind op ≠ some (.tuple cs.length) →
      (withOther (tuple cs rows.length false next) op).Tot _ _ :=
    fun h1 h2 => withOther_sim hp hr rfl hk h1 h2
  unfold Sim
  cases op with
  | null => exact withNull_sim hr
  | beginTuple n =>
    simp only [step]
    have h1 : ¬ ((rows.length : Int) = -1) := by omega
    simp only [h1, if_false]
    by_cases hn : n = cs.length
    · subst hn
      simp only [and_self, if_true]
      refine .ok ⟨_, rfl, ⟨rfl, ?_⟩, fun _ => rfl⟩
      refine .tupleOpen hk hrows (by simp) (fun i c hc => ?_) (fun _ => ⟨rfl, rfl⟩) (by simp)
      have hi := (List.getElem?_eq_some_iff.mp hc).1
      simpa [List.getElem?_replicate, hi] using hcs i c hc
    · simp only [hn, and_false, if_false, if_true]
      exact other (by simp) (by simpa [opKind] using hn)
  | _ => exact other (by simp) (by simp [opKind])

theorem tupleOpen_sim {op : Op} {cs : List Builder} {rows : List (List Val)} {next : Int}
    {fields : List (List Val)} {cur : Option Nat} {sub : Part} (hp : Plain utf8 kinds op)
    (hk : .tuple cs.length ∈ kinds) (hrows : ∀ r ∈ rows, r.length = cs.length)
    (hf : fields.length = cs.length)
    (hcs : ∀ (i : Nat) c, cs[i]? = some c →
      Rep utf8 kinds c (rows.map (fun r => r[i]?.getD .null) ++ fields[i]?.getD [])
        (if cur = some i then sub else .idle))
    (hnone : cur = none → sub = .idle ∧ next = -1)
    (hsome : ∀ i, cur = some i → i < cs.length ∧ next = i)
    (ih : ∀ op, Plain utf8 kinds op → ∀ (i : Nat) c, cs[i]? = some c →
      Sim utf8 kinds cap op c (rows.map (fun r => r[i]?.getD .null) ++ fields[i]?.getD [])
        (if cur = some i then sub else .idle))
    (hnull : Plain utf8 kinds .null) :
    Sim utf8 kinds cap op (tuple cs rows.length true next) (rows.map .tuple)
      (.tuple fields cur sub) := by
  -- the command goes to the field
  have pass : sub.isIdle = false ∨ (∀ i, op ≠ .index i) ∧ op ≠ .endTuple →
      ∀ i, cur = some i →
      (stepNth cap cs next op >>= fun cs => ok (tuple cs (rows.length : Int) true next)).Tot
        (IsOk (feed op (.tuple fields cur sub)) ∧ Narrow op (.tuple fields cur sub))
        (Post utf8 kinds op (tuple cs rows.length true next) (rows.map .tuple)
          (.tuple fields cur sub)) := by
    intro hpass i hi
    have hfeed := feed_tuple (fields := fields) (cur := cur) hpass
    rw [hi] at hfeed
    dsimp only at hfeed
    obtain ⟨hlt, hnext⟩ := hsome i hi
    have hc : cs[i]? = some cs[i] := List.getElem?_eq_getElem hlt
    rw [hnext, stepNth_eq hc, bind_assoc]
    have ihi := ih op hp i _ hc
    rw [if_pos hi] at ihi
    refine (ihi.mono (fun h => ⟨?_, h.2.2⟩) (fun _ h => h)).bind (fun c' hc' => ?_)
    · obtain ⟨⟨o, h⟩, _⟩ := h
      rw [hi, hfeed] at h
      obtain ⟨o', h, _⟩ := bind_eq_ok.mp h
      exact ⟨o', h⟩
    · obtain ⟨out, h1, h2, _⟩ := hc'
      rw [h1] at hfeed
      rw [bind_ok]
      have hset : (cs.set i c').length = cs.length := List.length_set
      cases out with
      | emit v =>
        refine .ok ⟨.stay (.tuple (giveAt fields i v) cur .idle), by rw [hi, hfeed]; rfl, ⟨rfl, ?_⟩, fun _ => by simp [kind]⟩
        refine .tupleOpen (by rw [hset]; exact hk) (by rw [hset]; exact hrows)
          (by rw [hset, giveAt, List.length_modify]; exact hf) (fun j d hd => ?_) (by simp [hi]) (by
            intro j hj
            rw [hset]
            obtain ⟨e1, e2⟩ := hsome j hj
            exact ⟨e1, by rw [← hnext]; exact e2⟩)
        rw [ite_self]
        by_cases hj : j = i
        · subst hj
          rw [List.getElem?_set_self hlt] at hd
          cases hd
          rw [giveAt, List.getElem?_modify_eq, List.getElem?_eq_getElem (by omega)]
          rw [List.getElem?_eq_getElem (by omega)] at h2
          simpa [After] using h2
        · rw [List.getElem?_set_ne (Ne.symm hj)] at hd
          have := hcs j d hd
          rw [hi, if_neg (by simpa using Ne.symm hj)] at this
          have e : (giveAt fields i v)[j]? = fields[j]? := by
            simp [giveAt, List.getElem?_modify, Ne.symm hj]
          rw [e]
          exact this
      | stay p =>
        refine .ok ⟨.stay (.tuple fields cur p), by rw [hi, hfeed]; rfl, ⟨rfl, ?_⟩, fun _ => by simp [kind]⟩
        refine .tupleOpen (by rw [hset]; exact hk) (by rw [hset]; exact hrows)
          (by rw [hset]; exact hf) (fun j d hd => ?_) (by simp [hi]) (by
            intro j hj
            rw [hset]
            obtain ⟨e1, e2⟩ := hsome j hj
            exact ⟨e1, by rw [← hnext]; exact e2⟩)
        by_cases hj : j = i
        · subst hj
          rw [List.getElem?_set_self hlt] at hd
          cases hd
          rw [if_pos hi]
          exact h2.2
        · rw [List.getElem?_set_ne (Ne.symm hj)] at hd
          have := hcs j d hd
          rw [hi, if_neg (by simpa using Ne.symm hj)] at this ⊢
          exact this
  have idle : idleAt cs next = ok sub.isIdle := by
    cases hc : cur with
    | none =>
      obtain ⟨h1, h2⟩ := hnone hc
      rw [h1, h2]; rfl
    | some i =>
      obtain ⟨h1, h2⟩ := hsome i hc
      have h3 : cs[i]? = some cs[i] := List.getElem?_eq_getElem h1
      have := hcs i _ h3
      rw [if_pos hc] at this
      rw [h2]
      exact idleAt_some h3 this
  have active : sub.isIdle = false → ∃ i, cur = some i := by
    intro h
    cases hc : cur with
    | none => obtain ⟨h1, h2⟩ := hnone hc; rw [h1] at h; simp [Part.isIdle] at h
    | some i => exact ⟨i, rfl⟩
  unfold Sim
  by_cases hix : ∃ i, op = .index i
  · obtain ⟨i, rfl⟩ := hix
    simp only [step, Bool.true_eq_false, if_false]
    by_cases hge : i ≥ (cs.length : Int)
    · rw [if_pos hge]
      refine .err ?_
      rintro ⟨⟨o, h1⟩, h2⟩
      cases hs : sub.isIdle with
      | false =>
        have := h2.1 i rfl hs
        omega
      | true =>
        simp only [feed, hs, if_true] at h1
        rw [if_neg (by omega)] at h1
        cases h1
    · rw [if_neg hge, idle, bind_ok]
      cases hs : sub.isIdle with
      | false =>
        obtain ⟨j, hj⟩ := active hs
        exact pass (.inl hs) j hj
      | true =>
        have := Part.eq_idle hs
        subst this
        have h0 := hp.nonneg i rfl
        have hfeed : feed (.index i) (.tuple fields cur .idle) =
            ok (.stay (.tuple fields (some i.toNat) .idle)) := by
          simp only [feed, Part.isIdle, if_true]
          rw [if_pos (by omega)]
        rw [if_pos rfl]
        refine .ok ⟨_, hfeed, ⟨rfl, ?_⟩, fun _ => rfl⟩
        refine .tupleOpen hk hrows hf (fun j d hd => ?_) (by simp) (fun j hj => ?_)
        · have := hcs j d hd
          rw [ite_self] at this ⊢
          exact this
        · simp only [Option.some.injEq] at hj
          omega
  by_cases hend : op = .endTuple
  · subst hend
    simp only [step, Bool.true_eq_false, if_false]
    rw [idle, bind_ok]
    cases hs : sub.isIdle with
    | false =>
      obtain ⟨j, hj⟩ := active hs
      exact pass (.inl hs) j hj
    | true =>
      have := Part.eq_idle hs
      subst this
      have hfeed : feed .endTuple (.tuple fields cur .idle) =
          mapR single fields >>= fun vs => ok (.emit (.tuple vs)) := rfl
      rw [hfeed, if_pos rfl]
      have hD : ∀ i, i < cs.length → (rows.map (fun r => r[i]?.getD .null) ++
          fields[i]?.getD []).length = rows.length + (fields[i]?.getD []).length := by
        intro i hi; simp
      refine (fillNulls_sim (utf8 := utf8) (kinds := kinds)
        (D := fun i => rows.map (fun r => r[i]?.getD .null) ++ fields[i]?.getD [])
        (fun i c hc => ?_) (fun hy i hi => ?_)).bind (fun cs' hcs' => ?_)
      · have e1 := hcs i c hc
        have e2 := ih .null hnull i c hc
        rw [ite_self] at e1 e2
        exact ⟨e1, by simp, e2⟩
      · rw [hD i hi]
        obtain ⟨⟨o, h1⟩, _⟩ := hy
        obtain ⟨vs, h1, _⟩ := bind_eq_ok.mp h1
        have := List.forall₂_iff_get.mp (mapR_forall₂.mp h1)
        have := this.2 i (by omega) (by have := this.1; omega)
        have := single_le.mp ⟨_, this⟩
        rw [List.getElem?_eq_getElem (by omega)]
        simpa using this
      · obtain ⟨h1, h2, h3⟩ := hcs'
        have hall : ∀ l ∈ fields, IsOk (single l) := by
          intro l hl
          obtain ⟨i, hi, rfl⟩ := List.getElem_of_mem hl
          have := h2 i (by omega)
          rw [hD i (by omega), List.getElem?_eq_getElem hi] at this
          refine single_le.mpr ?_
          simpa using this
        have hvs : ∃ vs, mapR single fields = ok vs :=
          (mapR_tot (h := True) (P := fun _ _ => True) (fun l hl => by
            obtain ⟨v, hv⟩ := hall l hl
            rw [hv]; exact .ok trivial)).2 trivial
        obtain ⟨vs, hvs⟩ := hvs
        have hF := List.forall₂_iff_get.mp (mapR_forall₂.mp hvs)
        refine .ok ⟨.emit (.tuple vs), by rw [hfeed, hvs]; rfl, ?_, fun _ => by simp [kind, h1]⟩
        have := Rep.tupleIdle (utf8 := utf8) (kinds := kinds) (cs := cs') (rows := rows ++ [vs])
          (next := next) (by rw [h1]; exact hk) ?_ ?_
        · simpa [After] using this
        · intro r hr
          rcases List.mem_append.mp hr with hr | hr
          · rw [h1]; exact hrows r hr
          · simp only [List.mem_singleton] at hr
            subst hr
            have := hF.1
            omega
        · intro i c' hc'
          have hi : i < cs.length := by
            have := (List.getElem?_eq_some_iff.mp hc').1
            omega
          have := h3 i c' hc'
          rw [hD i hi] at this
          have hs := single_ok.mp (hF.2 i (by omega) (by have := hF.1; omega))
          simp only [List.get_eq_getElem] at hs
          rw [List.getElem?_eq_getElem (by omega)] at this
          simp only [Option.getD_some, List.append_assoc] at this
          have e : rows.length + fields[i].length = rows.length ↔ fields[i].length = 0 := by omega
          simp only [e] at this
          rw [hs] at this
          rw [List.map_append, List.map_singleton, List.getElem?_eq_getElem (by have := hF.1; omega)]
          exact this
  · have hnot : (∀ i, op ≠ .index i) ∧ op ≠ .endTuple := ⟨fun i h => hix ⟨i, h⟩, hend⟩
    obtain ⟨e, he⟩ := step_tuple (cap := cap) (cs := cs) (len := rows.length) (next := next) hnot.1 hnot.2
    rw [he]
    cases hc : cur with
    | none =>
      obtain ⟨_, h2⟩ := hnone hc
      rw [if_pos h2]
      refine .err ?_
      rintro ⟨⟨o, h⟩, _⟩
      rw [feed_tuple (.inr hnot)] at h
      cases h
    | some i =>
      obtain ⟨_, h2⟩ := hsome i hc
      rw [if_neg (by omega)]
      have := pass (.inr hnot) i hc
      rw [hc] at this
      exact this

end Builder
end Awk
