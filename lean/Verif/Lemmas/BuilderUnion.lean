import Verif.Lemmas.BuilderRecord
/-
The commands of nodes with missing values and of unions, and the theorem about all nodes.
-/

namespace Awk
open R Spec
open Content (pk uk UOk)

namespace Builder

variable {utf8 : Bool} {kinds : List Kind} {cap : Nat → Nat}

/-- A value that was begun is completed by a command that ends it. -/
theorem emit_end {op : Op} {part : Part} {v : Val} (hi : part.isIdle = false)
    (h : feed op part = ok (.emit v)) : op.isEnd = true := by
  cases part with
  | idle => simp [Part.isIdle] at hi
  | list items sub =>
    simp only [feed] at h
    split at h
    · rename_i hc
      rw [hc.2]; rfl
    · obtain ⟨out, _, h⟩ := bind_eq_ok.mp h
      cases out <;> cases h
  | tuple fields cur sub =>
    by_cases he : op = .endTuple
    · subst he; rfl
    by_cases hx : ∃ i, op = .index i
    · obtain ⟨i, rfl⟩ := hx
      cases hs : sub.isIdle with
      | true =>
        simp only [feed, hs, if_true] at h
        split at h <;> cases h
      | false =>
        rw [feed_tuple (.inl hs)] at h
        cases cur with
        | none => cases h
        | some i =>
          obtain ⟨out, _, h⟩ := bind_eq_ok.mp h
          cases out <;> cases h
    · rw [feed_tuple (.inr ⟨fun i h => hx ⟨i, h⟩, he⟩)] at h
      cases cur with
      | none => cases h
      | some i =>
        obtain ⟨out, _, h⟩ := bind_eq_ok.mp h
        cases out <;> cases h
  | record fields cur sub =>
    by_cases he : op = .endRecord
    · subst he; rfl
    by_cases hx : ∃ i, op = .field i
    · obtain ⟨i, rfl⟩ := hx
      cases hs : sub.isIdle with
      | true =>
        simp only [feed, hs, if_true] at h
        cases h
      | false =>
        rw [feed_record (.inl hs)] at h
        cases cur with
        | none => cases h
        | some i =>
          obtain ⟨out, _, h⟩ := bind_eq_ok.mp h
          cases out <;> cases h
    · rw [feed_record (.inr ⟨fun i h => hx ⟨i, h⟩, he⟩)] at h
      cases cur with
      | none => cases h
      | some i =>
        obtain ⟨out, _, h⟩ := bind_eq_ok.mp h
        cases out <;> cases h

/-- Without a begun value, exactly data completes a value. -/
theorem emit_data {op : Op} {out : Out} (hn : op ≠ .null) (h : feed op .idle = ok out) :
    op.isData = (match out with | .emit _ => true | .stay _ => false) ∧ isClosing op = false := by
  cases op with
  | null => exact absurd rfl hn
  | str u codes => cases u <;> (simp only [feed, opVal] at h; cases h; exact ⟨rfl, rfl⟩)
  | _ =>
    simp only [feed, opVal] at h
    cases h
    try exact ⟨rfl, rfl⟩

theorem After.length {op : Op} {done : List Val} {out : Out} {b : Builder}
    (h : After utf8 kinds done out b) :
    b.length = done.length + (match out with | .emit _ => 1 | .stay _ => 0 : Nat) := by
  cases out with
  | emit v => simpa using Rep.length_eq h
  | stay p => simpa using Rep.length_eq h.2

theorem pk_append {items : List Val} {more : List Val} {index : List Int}
    (h : ∀ j ∈ index, j < 0 ∨ j < items.length) :
    index.map (pk (items ++ more)) = index.map (pk items) := by
  apply List.map_congr_left
  intro j hj
  unfold pk
  split
  · rfl
  · rcases h j hj with h | h
    · omega
    · rw [List.getElem?_append_left (by omega)]

theorem option_post {op : Op} {index : List Int} {c c' : Builder} {items : List Val} {part : Part}
    {out : Out} (hout : feed op part = ok out) (hix : ∀ j ∈ index, j < 0 ∨ j < items.length)
    (h : After utf8 kinds items out c') {index' : List Int}
    (hi : index' = match out with | .emit _ => index ++ [(items.length : Int)] | .stay _ => index) :
    Post utf8 kinds op (option index c) (index.map (pk items)) part (option index' c') := by
  refine ⟨out, hout, ?_, fun _ => rfl⟩
  cases out with
  | emit v =>
    subst hi
    have := Rep.option (index := index ++ [(items.length : Int)]) h (by
      intro j hj
      simp only [List.length_append, List.length_singleton]
      rcases List.mem_append.mp hj with hj | hj
      · rcases hix j hj with h | h
        · exact .inl h
        · right; omega
      · simp only [List.mem_singleton] at hj; right; omega)
    rw [List.map_append, pk_append hix] at this
    have e : pk (items ++ [v]) (items.length : Int) = v := by
      unfold pk
      rw [if_neg (by omega)]
      simp
    simpa [After, e] using this
  | stay p =>
    subst hi
    exact ⟨h.1, .option h.2 hix⟩

theorem option_sim {op : Op} {index : List Int} {c : Builder} {items : List Val} {part : Part}
    (hr : Rep utf8 kinds c items part) (hix : ∀ j ∈ index, j < 0 ∨ j < items.length)
    (ih : Sim utf8 kinds cap op c items part) :
    Sim utf8 kinds cap op (option index c) (index.map (pk items)) part := by
  unfold Sim at ih ⊢
  have ha := hr.active_eq
  have hlen := hr.length_eq
  cases hp : part.isIdle with
  | true =>
    have hpi := Part.eq_idle hp
    subst hpi
    simp only [hp, Bool.not_true] at ha
    by_cases hn : op = .null
    · subst hn
      simp only [step, ha, if_true]
      refine .ok ⟨.emit .null, rfl, ?_, fun _ => rfl⟩
      have := Rep.option (index := index ++ [-1]) hr (by
        intro j hj
        rcases List.mem_append.mp hj with hj | hj
        · exact hix j hj
        · simp only [List.mem_singleton] at hj; left; omega)
      simpa [After, pk] using this
    · have e : step cap (option index c) op = if isClosing op then notOpen
          else step cap c op >>= fun c' =>
            ok (option (if op.isData then index ++ [c.length] else index) c') := by
        simp only [step, ha, if_true]
      rw [e]
      cases hcl : isClosing op with
      | true =>
        refine .err ?_
        rintro ⟨⟨out, h⟩, _⟩
        rw [(emit_data hn h).2] at hcl
        cases hcl
      | false =>
        simp only [Bool.false_eq_true, if_false]
        refine ih.bind (fun c' hc' => ?_)
        obtain ⟨out, h1, h2, _⟩ := hc'
        refine .ok (option_post h1 hix h2 ?_)
        have := (emit_data hn h1).1
        rw [hlen]
        cases out <;> simp_all
  | false =>
    simp only [hp, Bool.not_false] at ha
    simp only [step, ha, Bool.true_eq_false, if_false]
    refine ih.bind (fun c' hc' => ?_)
    obtain ⟨out, h1, h2, _⟩ := hc'
    refine .ok (option_post h1 hix h2 ?_)
    have e := After.length (op := op) h2
    rw [hlen]
    cases out with
    | emit v =>
      simp only [Nat.cast_one] at e
      rw [if_pos ⟨emit_end hp h1, by omega⟩]
    | stay p =>
      simp only [Nat.cast_zero, add_zero] at e
      rw [if_neg (by rintro ⟨_, h⟩; omega)]

theorem uok_ext {cols cols' : List (List Val)} {tags index : List Int}
    (h : List.Forall₂ (UOk (cols.map List.length)) tags index)
    (hx : ∀ (i : Nat) items, cols[i]? = some items → ∃ ext, cols'[i]? = some (items ++ ext)) :
    List.Forall₂ (UOk (cols'.map List.length)) tags index ∧
      List.zipWith (uk cols') tags index = List.zipWith (uk cols) tags index := by
  induction h with
  | nil => exact ⟨.nil, rfl⟩
  | @cons t j ts js h _ ih =>
    obtain ⟨g1, g2, g3, g4⟩ := h
    rw [List.length_map] at g3
    have hc : cols[t.toNat]? = some cols[t.toNat] := List.getElem?_eq_getElem g3
    obtain ⟨ext, he⟩ := hx _ _ hc
    rw [List.getElem?_map, hc] at g4
    simp only [Option.map_some, Option.getD_some] at g4
    refine ⟨.cons ⟨g1, g2, ?_, ?_⟩ ih.1, ?_⟩
    · rw [List.length_map]; exact (List.getElem?_eq_some_iff.mp he).1
    · rw [List.getElem?_map, he]
      simp only [Option.map_some, Option.getD_some, List.length_append]
      omega
    · rw [List.zipWith_cons_cons, List.zipWith_cons_cons, ih.2]
      congr 1
      unfold uk
      rw [he, hc]
      simp only [Option.getD_some]
      rw [List.getElem?_append_left (by omega)]

theorem wrap8_eq {i : Nat} (h : i ≤ 127) : wrap8 i = i := by
  unfold wrap8
  rw [Int.bmod_eq_of_le] <;> omega

theorem takes_iff {op : Op} (hp : Plain utf8 kinds op) {c : Builder} {items : List Val} {part : Part}
    (hr : Rep utf8 kinds c items part) {k : Kind} (hk : c.kind = some k) :
    takes op c = true ↔ opKind op = some k := by
  have hl := hr.length_eq
  cases c with
  | unknown => cases hk
  | option => cases hk
  | union => cases hk
  | complex => cases hr
  | tuple cs len begun next =>
    cases hk
    simp only [length] at hl
    cases op <;> simp [takes, opKind]
    constructor
    · rintro (h | h)
      · omega
      · omega
    · intro h; omega
  | record cs keys name len begun next tryFrom =>
    cases hk
    simp only [length] at hl
    have hname : name ≠ some "" := by cases hr <;> assumption
    cases op with
    | beginRecord n =>
      have hn : n ≠ some "" := by rintro rfl; exact hp.named rfl
      have : ¬ len = -1 := by omega
      simp only [takes, opKind, this, decide_false, Bool.false_or, nameMatches_iff hname hn,
        Option.some.injEq, Kind.record.injEq]
      exact ⟨Eq.symm, Eq.symm⟩
    | _ => simp [takes, opKind]
  | _ =>
    cases hk
    cases op <;> simp [takes, opKind]
    try exact eq_comm

theorem isInt_kind {c : Builder} (h : isInt c = true) : ∃ xs, c = int xs := by
  cases c <;> simp [isInt] at h
  exact ⟨_, rfl⟩

theorem inPlace_eq {op : Op} {c c' : Builder} {items : List Val} {part : Part}
    (hr : Rep utf8 kinds c items part) : inPlace op c c' = c' := by
  have hl := hr.length_eq
  unfold inPlace
  split
  · simp only [length] at hl; omega
  · rfl

/-- A union of which the `i`-th alternative has changed. -/
theorem union_set {tags index : List Int} {cs : List Builder} {cols : List (List Val)}
    {ks : List Kind} (hks : cs.map kind = ks.map some) (hnd : ks.Nodup) (hin : ∀ k ∈ ks, k ∈ kinds)
    (huok : List.Forall₂ (UOk (cols.map List.length)) tags index) (hcols : cols.length = cs.length)
    {i : Nat} {items : List Val} {c' : Builder}
    (hcs : ∀ (j : Nat) c items, j ≠ i → cs[j]? = some c → cols[j]? = some items →
      Rep utf8 kinds c items .idle)
    (hi : cols[i]? = some items) {k' : Kind} (hk' : c'.kind = some k') (hkin : k' ∈ kinds)
    (hnew : ∀ j, j ≠ i → ks[j]? ≠ some k') {out : Out} (h : After utf8 kinds items out c') :
    After utf8 kinds (List.zipWith (uk cols) tags index) out (match out with
      | .emit _ => union (tags ++ [(i : Int)]) (index ++ [(items.length : Int)]) (cs.set i c') (-1)
      | .stay _ => union tags index (cs.set i c') i) := by
  have hlt : i < cols.length := (List.getElem?_eq_some_iff.mp hi).1
  have hks' : (cs.set i c').map kind = (ks.set i k').map some := by
    rw [List.map_set, List.map_set, hks, hk']
  have hlen : ks.length = cs.length := by
    have := congrArg List.length hks
    simpa using this.symm
  have hnd' : (ks.set i k').Nodup := by
    rw [List.nodup_iff_injective_get]
    intro a b hab
    simp only [List.get_eq_getElem, List.getElem_set] at hab
    have ha := a.2
    have hb := b.2
    simp only [List.length_set] at ha hb
    ext
    split at hab <;> split at hab
    · omega
    · rename_i h1 h2
      exact absurd (List.getElem?_eq_some_iff.mpr ⟨hb, hab.symm⟩) (hnew _ (Ne.symm h2))
    · rename_i h1 h2
      exact absurd (List.getElem?_eq_some_iff.mpr ⟨ha, hab⟩) (hnew _ (Ne.symm h1))
    · exact (List.Nodup.getElem_inj_iff hnd).mp hab
  have hin' : ∀ k ∈ ks.set i k', k ∈ kinds := by
    intro k hk
    rcases List.mem_or_eq_of_mem_set hk with h | rfl
    · exact hin k h
    · exact hkin
  cases out with
  | emit v =>
    obtain ⟨e1, e2⟩ := uok_ext (cols' := cols.set i (items ++ [v])) huok (by
      intro j its hj
      by_cases hji : j = i
      · subst hji
        rw [hi] at hj; cases hj
        exact ⟨[v], List.getElem?_set_self hlt⟩
      · exact ⟨[], by rw [List.getElem?_set_ne (Ne.symm hji), List.append_nil]; exact hj⟩)
    have := Rep.union (utf8 := utf8) (kinds := kinds) (tags := tags ++ [(i : Int)])
      (index := index ++ [(items.length : Int)]) (cs := cs.set i c') (current := -1)
      (cols := cols.set i (items ++ [v])) (part := .idle) hks' hnd' hin' (List.rel_append (R := UOk _) e1 (.cons (by
        refine ⟨by omega, by omega, by simpa using hlt, ?_⟩
        simp [hlt]) .nil)) (by simpa using hcols) ?_ (.inl ⟨rfl, rfl⟩)
    · rw [List.zipWith_append huok.length_eq, e2] at this
      have e : uk (cols.set i (items ++ [v])) (i : Int) (items.length : Int) = v := by
        unfold uk; simp [hlt]
      simpa [After, e] using this
    · intro j c its hc hj
      rw [ite_self]
      by_cases hji : j = i
      · subst hji
        rw [List.getElem?_set_self hlt] at hj
        rw [List.getElem?_set_self (by omega)] at hc
        cases hc; cases hj
        exact h
      · rw [List.getElem?_set_ne (Ne.symm hji)] at hc hj
        exact hcs j c its hji hc hj
  | stay p =>
    refine ⟨h.1, .union hks' hnd' hin' huok (by simpa using hcols) ?_
      (.inr ⟨by omega, by rw [List.length_set]; omega, h.1⟩)⟩
    intro j c its hc hj
    by_cases hji : j = i
    · subst hji
      rw [List.getElem?_set_self (by omega)] at hc
      rw [hi] at hj
      cases hc; cases hj
      simpa using h.2
    · rw [List.getElem?_set_ne (Ne.symm hji)] at hc
      rw [if_neg (by omega)]
      exact hcs j c its hji hc hj

/-- A union to which an alternative has been added. -/
theorem union_push {tags index : List Int} {cs : List Builder} {cols : List (List Val)}
    {ks : List Kind} (hks : cs.map kind = ks.map some) (hnd : ks.Nodup) (hin : ∀ k ∈ ks, k ∈ kinds)
    (huok : List.Forall₂ (UOk (cols.map List.length)) tags index) (hcols : cols.length = cs.length)
    (hcs : ∀ (j : Nat) c items, cs[j]? = some c → cols[j]? = some items →
      Rep utf8 kinds c items .idle)
    {s : Builder} {k' : Kind} (hk' : s.kind = some k') (hkin : k' ∈ kinds)
    (hnew : k' ∉ ks) {out : Out} (h : After utf8 kinds [] out s) :
    After utf8 kinds (List.zipWith (uk cols) tags index) out (match out with
      | .emit _ => union (tags ++ [(cs.length : Int)]) (index ++ [0]) (cs ++ [s]) (-1)
      | .stay _ => union tags index (cs ++ [s]) cs.length) := by
  have hks' : (cs ++ [s]).map kind = (ks ++ [k']).map some := by simp [hks, hk']
  have hnd' : (ks ++ [k']).Nodup := by
    rw [List.nodup_append]
    refine ⟨hnd, by simp, ?_⟩
    intro a ha b hb
    simp only [List.mem_singleton] at hb
    subst hb
    rintro rfl
    exact hnew ha
  have hin' : ∀ k ∈ ks ++ [k'], k ∈ kinds := by
    intro k hk
    rcases List.mem_append.mp hk with h | h
    · exact hin k h
    · simp only [List.mem_singleton] at h; subst h; exact hkin
  have hget : ∀ {j c l its}, (cs ++ [s])[j]? = some c → (cols ++ [l])[j]? = some its →
      (j < cs.length ∧ cs[j]? = some c ∧ cols[j]? = some its) ∨ (j = cs.length ∧ c = s ∧ its = l) := by
    intro j c l its hc hj
    by_cases hlt : j < cs.length
    · rw [List.getElem?_append_left hlt] at hc
      rw [List.getElem?_append_left (by omega)] at hj
      exact .inl ⟨hlt, hc, hj⟩
    · have : j = cs.length := by
        have := (List.getElem?_eq_some_iff.mp hc).1
        simp at this; omega
      subst this
      rw [List.getElem?_append_right (by omega)] at hc hj
      rw [hcols] at hj
      simp at hc hj
      exact .inr ⟨rfl, hc.symm, hj.symm⟩
  have hx : ∀ l : List Val, ∀ (i : Nat) items, cols[i]? = some items →
      ∃ ext, (cols ++ [l])[i]? = some (items ++ ext) := fun l i items hi =>
    ⟨[], by rw [List.getElem?_append_left (List.getElem?_eq_some_iff.mp hi).1, List.append_nil]; exact hi⟩
  cases out with
  | emit v =>
    obtain ⟨e1, e2⟩ := uok_ext huok (hx [v])
    have := Rep.union (utf8 := utf8) (kinds := kinds) (tags := tags ++ [(cs.length : Int)])
      (index := index ++ [0]) (cs := cs ++ [s]) (current := -1)
      (cols := cols ++ [[v]]) (part := .idle) hks' hnd' hin' (List.rel_append (R := UOk _) e1 (.cons (by
        refine ⟨by omega, by omega, by simp [hcols], ?_⟩
        simp [← hcols]) .nil)) (by simp [hcols]) ?_ (.inl ⟨rfl, rfl⟩)
    · rw [List.zipWith_append huok.length_eq, e2] at this
      have e : uk (cols ++ [[v]]) (cs.length : Int) 0 = v := by
        unfold uk; simp [← hcols]
      simpa [After, e] using this
    · intro j c its hc hj
      rw [ite_self]
      rcases hget hc hj with ⟨_, h1, h2⟩ | ⟨_, rfl, rfl⟩
      · exact hcs j c its h1 h2
      · exact h
  | stay p =>
    obtain ⟨e1, e2⟩ := uok_ext huok (hx [])
    have := Rep.union (utf8 := utf8) (kinds := kinds) (tags := tags) (index := index)
      (cs := cs ++ [s]) (current := cs.length) (cols := cols ++ [[]]) (part := p) hks' hnd' hin' e1
      (by simp [hcols]) ?_ (.inr ⟨by omega, by simp, h.1⟩)
    · rw [e2] at this
      exact ⟨h.1, this⟩
    · intro j c its hc hj
      rcases hget hc hj with ⟨hj, h1, h2⟩ | ⟨rfl, rfl, rfl⟩
      · rw [if_neg (by omega)]
        exact hcs j c its h1 h2
      · rw [if_pos rfl]
        exact h.2

theorem union_sim {op : Op} (hp : Plain utf8 kinds op) {tags index : List Int} {cs : List Builder}
    {current : Int} {cols : List (List Val)} {ks : List Kind} {part : Part}
    (hmax : kinds.length ≤ 127)
    (hks : cs.map kind = ks.map some) (hnd : ks.Nodup) (hin : ∀ k ∈ ks, k ∈ kinds)
    (huok : List.Forall₂ (UOk (cols.map List.length)) tags index) (hcols : cols.length = cs.length)
    (hcs : ∀ (i : Nat) c items, cs[i]? = some c → cols[i]? = some items →
      Rep utf8 kinds c items (if current = i then part else .idle))
    (hcur : current = -1 ∧ part = .idle ∨
      0 ≤ current ∧ current < cs.length ∧ part.isIdle = false)
    (ih : ∀ (i : Nat) c items, cs[i]? = some c → cols[i]? = some items →
      Sim utf8 kinds cap op c items (if current = i then part else .idle)) :
    Sim utf8 kinds cap op (union tags index cs current) (List.zipWith (uk cols) tags index) part := by
  have hr := Rep.union hks hnd hin huok hcols hcs hcur
  have hlen : ks.length = cs.length := by
    have := congrArg List.length hks
    simpa using this.symm
  have hkget : ∀ {i : Nat} {c : Builder}, cs[i]? = some c → ∃ k, ks[i]? = some k ∧ c.kind = some k := by
    intro i c hc
    have hi := (List.getElem?_eq_some_iff.mp hc).1
    refine ⟨ks[i], List.getElem?_eq_getElem (by omega), ?_⟩
    have : (cs.map kind)[i]? = (ks.map some)[i]? := by rw [hks]
    rw [List.getElem?_map, List.getElem?_map, hc, List.getElem?_eq_getElem (by omega)] at this
    simpa using this
  have hle : cs.length ≤ kinds.length := by
    rw [← hlen]
    exact (List.subperm_of_subset hnd (fun k hk => hin k hk)).length_le
  have uniq : ∀ {i : Nat} {k : Kind}, ks[i]? = some k → ∀ j, j ≠ i → ks[j]? ≠ some k := by
    intro i k hi j hj hjk
    obtain ⟨h1, h2⟩ := List.getElem?_eq_some_iff.mp hi
    obtain ⟨h3, h4⟩ := List.getElem?_eq_some_iff.mp hjk
    exact hj ((List.Nodup.getElem_inj_iff hnd).mp (h4.trans h2.symm))
  unfold Sim
  rcases hcur with ⟨rfl, rfl⟩ | ⟨hc0, hc1, hpart⟩
  · have hcs' : ∀ (i : Nat) c items, cs[i]? = some c → cols[i]? = some items →
        Rep utf8 kinds c items .idle := by
      intro i c items h1 h2
      simpa using hcs i c items h1 h2
    have ih' : ∀ (i : Nat) c items, cs[i]? = some c → cols[i]? = some items →
        Sim utf8 kinds cap op c items .idle := by
      intro i c items h1 h2
      simpa using ih i c items h1 h2
    by_cases hn : op = .null
    · subst hn
      simp only [step, if_true]
      exact withNull_sim hr
    · have hstep : step cap (union tags index cs (-1)) op = match start op with
        | none => notOpen
        | some s =>
          match findTaker op cs with
          | some i =>
            rd cs (i : Int) >>= fun c =>
            if takes op c = false ∧ i > 127 then ub
            else
              stepNth cap cs i op >>= fun cs' =>
              rd cs' (i : Int) >>= fun c' =>
              if op.isData then ok (union (tags ++ [wrap8 i]) (index ++ [c.length]) cs' (-1))
              else ok (union tags index (cs'.set i (inPlace op c c')) (wrap8 i))
          | none =>
            if op.isData then
              ok (union (tags ++ [wrap8 cs.length]) (index ++ [0]) (cs ++ [s]) (-1))
            else ok (union tags index (cs ++ [s]) (wrap8 cs.length)) := by
        simp only [step, if_true]
        cases op <;> first | exact absurd rfl hn | rfl
      rw [hstep]
      have hknone : Part.idle.isIdle = false ∨
          ((union tags index cs (-1)).kind ≠ none ∧ opKind op = (union tags index cs (-1)).kind) →
          ∀ b' : Builder, b'.kind = (union tags index cs (-1)).kind := by
        rintro (h | ⟨h, _⟩)
        · simp [Part.isIdle] at h
        · exact absurd rfl h
      cases hs : start op with
      | none => exact .err (fun h => start_none hs hn h.1)
      | some s =>
        obtain ⟨out, k', h1, h2, h3, h4, h5, h6⟩ := start_some hp hs
        dsimp only
        cases hf : findTaker op cs with
        | some i =>
          dsimp only
          -- what is needed about the alternative
          have main : ∀ c items, cs[i]? = some c → cols[i]? = some items →
              (∀ c', Post utf8 kinds op c items .idle c' → step cap c op = ok c' → ∃ k, c'.kind = some k ∧ k ∈ kinds ∧
                ∀ j, j ≠ i → ks[j]? ≠ some k) →
              (rd cs (i : Int) >>= fun c =>
                if takes op c = false ∧ i > 127 then ub
                else
                  stepNth cap cs i op >>= fun cs' =>
                  rd cs' (i : Int) >>= fun c' =>
                  if op.isData then ok (union (tags ++ [wrap8 i]) (index ++ [c.length]) cs' (-1))
                  else ok (union tags index (cs'.set i (inPlace op c c')) (wrap8 i))).Tot
              (IsOk (feed op .idle) ∧ Narrow op .idle)
              (Post utf8 kinds op (union tags index cs (-1)) (List.zipWith (uk cols) tags index) .idle) := by
            intro c items hc hi hkind
            have hilt := (List.getElem?_eq_some_iff.mp hc).1
            have hi127 : i ≤ 127 := by omega
            rw [rd_eq_ok.mpr ⟨by omega, by rw [Int.toNat_natCast]; exact hc⟩, bind_ok, if_neg (by omega), stepNth_eq hc,
              R.bind_assoc]
            have hsim := ih' i c items hc hi
            have hst : (step cap c op).Tot (IsOk (feed op .idle) ∧ Narrow op .idle)
                (fun c' => Post utf8 kinds op c items .idle c' ∧ step cap c op = ok c') := by
              refine ⟨?_, hsim.2⟩
              cases he : step cap c op with
              | ok x => have := hsim.1; rw [he] at this; exact ⟨this, rfl⟩
              | err e => exact trivial
              | ub => have := hsim.1; rw [he] at this; exact this
            refine hst.bind (fun c' hc' => ?_)
            obtain ⟨hc', hste⟩ := hc'
            obtain ⟨k, g1, g2, g3⟩ := hkind c' hc' hste
            obtain ⟨out', h1', h2', _⟩ := hc'
            rw [h1] at h1'
            cases h1'
            rw [bind_ok, rd_eq_ok.mpr ⟨by omega, by
              rw [Int.toNat_natCast, List.getElem?_set_self hilt]⟩, bind_ok,
              inPlace_eq (hcs' i c items hc hi), List.set_set, wrap8_eq hi127,
              (hcs' i c items hc hi).length_eq]
            have := union_set hks hnd hin huok hcols (i := i) (items := items) (c' := c')
              (fun j d its _ hd hj => hcs' j d its hd hj) hi g1 g2 g3 h2'
            cases out with
            | emit v =>
              simp only at h6
              rw [if_pos h6]
              exact .ok ⟨_, h1, this, fun hk => hknone hk _⟩
            | stay p =>
              simp only at h6
              rw [if_neg (by simp [h6])]
              exact .ok ⟨_, h1, this, fun hk => hknone hk _⟩
          unfold findTaker at hf
          cases hf1 : cs.findIdx? (takes op) with
          | some i' =>
            rw [hf1] at hf
            cases hf
            obtain ⟨hlt, ht, _⟩ := List.findIdx?_eq_some_iff_getElem.mp hf1
            have hc : cs[i]? = some cs[i] := List.getElem?_eq_getElem hlt
            have hi : cols[i]? = some cols[i] := List.getElem?_eq_getElem (by omega)
            refine main _ _ hc hi (fun c' hc' _ => ?_)
            obtain ⟨k, g1, g2⟩ := hkget hc
            have hk2 := (takes_iff hp (hcs' i _ _ hc hi) g2).mp ht
            obtain ⟨_, _, _, hkk⟩ := hc'
            rw [g2, hk2] at hkk
            refine ⟨k, hkk (.inr ⟨by simp, rfl⟩), hin k (List.mem_of_getElem? g1), uniq g1⟩
          | none =>
            rw [hf1] at hf
            rw [List.findIdx?_eq_none_iff] at hf1
            cases op with
            | complex re im => exact absurd rfl (hp.real re im)
            | real x =>
              dsimp only at hf
              obtain ⟨hlt, ht, _⟩ := List.findIdx?_eq_some_iff_getElem.mp hf
              have hc : cs[i]? = some cs[i] := List.getElem?_eq_getElem hlt
              have hi : cols[i]? = some cols[i] := List.getElem?_eq_getElem (by omega)
              refine main _ _ hc hi (fun c' hc' hst => ?_)
              obtain ⟨xs, hxs⟩ := isInt_kind ht
              rw [hxs] at hst
              simp only [step] at hst
              refine ⟨.float, ?_, hp.kind _ rfl, ?_⟩
              · cases hst; rfl
              · intro j _ hj
                have hjl := (List.getElem?_eq_some_iff.mp hj).1
                have hcj : cs[j]? = some cs[j] := List.getElem?_eq_getElem (by omega)
                have hij : cols[j]? = some cols[j] := List.getElem?_eq_getElem (by omega)
                obtain ⟨k, g1, g2⟩ := hkget hcj
                rw [hj] at g1
                cases g1
                have := (takes_iff hp (hcs' j _ _ hcj hij) g2).mpr rfl
                rw [hf1 _ (List.mem_of_getElem? hcj)] at this
                cases this
            | _ => cases hf
        | none =>
          dsimp only
          have hnew : k' ∉ ks := by
            intro hk'
            obtain ⟨j, hjl, hj⟩ := List.getElem_of_mem hk'
            have hcj : cs[j]? = some cs[j] := List.getElem?_eq_getElem (by omega)
            have hij : cols[j]? = some cols[j] := List.getElem?_eq_getElem (by omega)
            obtain ⟨k, g1, g2⟩ := hkget hcj
            rw [List.getElem?_eq_getElem hjl, hj] at g1
            cases g1
            have ht := (takes_iff hp (hcs' j _ _ hcj hij) g2).mpr h2
            unfold findTaker at hf
            cases hf1 : cs.findIdx? (takes op) with
            | some i => rw [hf1] at hf; cases hf
            | none =>
              rw [List.findIdx?_eq_none_iff] at hf1
              rw [hf1 _ (List.mem_of_getElem? hcj)] at ht
              cases ht
          rw [wrap8_eq (by omega)]
          have := union_push hks hnd hin huok hcols hcs' h4 h3 hnew h5
          cases out with
          | emit v =>
            simp only at h6
            rw [if_pos h6]
            exact .ok ⟨_, h1, this, fun hk => hknone hk _⟩
          | stay p =>
            simp only at h6
            rw [if_neg (by simp [h6])]
            exact .ok ⟨_, h1, this, fun hk => hknone hk _⟩
  · obtain ⟨i, rfl⟩ := Int.eq_ofNat_of_zero_le hc0
    have hilt : i < cs.length := by omega
    have hc : cs[i]? = some cs[i] := List.getElem?_eq_getElem hilt
    have hi : cols[i]? = some cols[i] := List.getElem?_eq_getElem (by omega)
    simp only [step]
    rw [if_neg (by omega), rd_eq_ok.mpr ⟨by omega, by rw [Int.toNat_natCast]; exact hc⟩, bind_ok, stepNth_eq hc, R.bind_assoc]
    have hsim := ih i _ _ hc hi
    have hrep := hcs i _ _ hc hi
    rw [if_pos rfl] at hsim hrep
    refine hsim.bind (fun c' hc' => ?_)
    obtain ⟨out, h1, h2, hkk⟩ := hc'
    obtain ⟨k, g1, g2⟩ := hkget hc
    have hk' := hkk (.inl hpart)
    rw [g2] at hk'
    rw [bind_ok, rd_eq_ok.mpr ⟨by omega, by
      rw [Int.toNat_natCast, List.getElem?_set_self hilt]⟩, bind_ok]
    have := union_set hks hnd hin huok hcols (i := i) (items := cols[i]) (c' := c')
      (fun j d its hne hd hj => by
        have := hcs j d its hd hj
        rwa [if_neg (by omega)] at this) hi hk' (hin k (List.mem_of_getElem? g1)) (uniq g1) h2
    have e := After.length (op := op) h2
    rw [hrep.length_eq]
    cases out with
    | emit v =>
      simp only [Nat.cast_one] at e
      rw [if_pos ⟨emit_end hpart h1, by omega⟩]
      exact .ok ⟨_, h1, this, fun _ => rfl⟩
    | stay p =>
      simp only [Nat.cast_zero, add_zero] at e
      rw [if_neg (by rintro ⟨_, h⟩; omega)]
      exact .ok ⟨_, h1, this, fun _ => rfl⟩

theorem plain_null : Plain utf8 kinds .null where
  kind := by simp [opKind]
  real := by simp
  encoding := by simp
  nonneg := by simp
  named := by simp

/-- Every command does what the specification says. -/
theorem Rep.sim {b : Builder} {done : List Val} {part : Part} (h : Rep utf8 kinds b done part)
    (hmax : kinds.length ≤ 127) : ∀ op, Plain utf8 kinds op → Sim utf8 kinds cap op b done part := by
  induction h with
  | unknown n => exact fun op hp => unknown_sim hp n
  | bool hk => exact fun op hp => bool_sim hp hk
  | int hk => exact fun op hp => int_sim hp hk
  | float hk hx => exact fun op hp => float_sim hp hk hx
  | str hk => exact fun op hp => str_sim hp hk
  | listIdle hk hr _ => exact fun op hp => listIdle_sim hp hk hr
  | listOpen hk hr ih => exact fun op hp => listOpen_sim hk hr (ih op hp)
  | tupleIdle hk hl hcs _ => exact fun op hp => tupleIdle_sim hp hk hl hcs
  | tupleOpen hk hl hf hcs h1 h2 ih =>
    exact fun op hp => tupleOpen_sim hp hk hl hf hcs h1 h2 (fun op hp i c hc => ih i c hc op hp) plain_null
  | recordIdle hk hn hl hnd hrows hcs _ => exact fun op hp => recordIdle_sim hp hk hn hl hnd hrows hcs
  | recordOpen hk hn hl hnd hrows hfn hfk hcs h1 h2 ih =>
    exact fun op hp => recordOpen_sim hp hk hn hl hnd hrows hfn hfk hcs h1 h2
      (fun op hp i c k hc hk => ih i c k hc hk op hp) plain_null
  | option hr hix ih => exact fun op hp => option_sim hr hix (ih op hp)
  | union hks hnd hin huok hcols hcs hcur ih =>
    exact fun op hp => union_sim hp hmax hks hnd hin huok hcols hcs hcur
      (fun i c items hc hi => ih i c items hc hi op hp)

end Builder
end Awk
