import Verif.Lemmas.Builder
import Verif.Lemmas.Loops
/-
A command takes a node that represents a state of the specification to one that represents the next
state.
-/

namespace Awk
open R Spec
open Content (pk uk UOk)

namespace Builder

variable {utf8 : Bool} {kinds : List Kind} {cap : Nat → Nat}

/-- The node after a command with this outcome. -/
def After (utf8 : Bool) (kinds : List Kind) (done : List Val) : Out → Builder → Prop
  | .emit v, b => Rep utf8 kinds b (done ++ [v]) .idle
  | .stay p, b => p.isIdle = false ∧ Rep utf8 kinds b done p

/-- The node `b'` after the command, from `b`. -/
def Post (utf8 : Bool) (kinds : List Kind) (op : Op) (b : Builder) (done : List Val) (part : Part)
    (b' : Builder) : Prop :=
  ∃ out, feed op part = ok out ∧ After utf8 kinds done out b' ∧
    (part.isIdle = false ∨ (b.kind ≠ none ∧ opKind op = b.kind) → b'.kind = b.kind)

/-- The command does what the specification says. -/
def Sim (utf8 : Bool) (kinds : List Kind) (cap : Nat → Nat) (op : Op) (b : Builder)
    (done : List Val) (part : Part) : Prop :=
  (step cap b op).Tot (IsOk (feed op part) ∧ Narrow op part) (Post utf8 kinds op b done part)

theorem not_isOk_err {e : String} {α : Type} : ¬ IsOk (err e : R α) := by rintro ⟨a, h⟩; cases h

theorem start_none {op : Op} (h : start op = none) (hn : op ≠ .null) : ¬ IsOk (feed op .idle) := by
  cases op <;> simp_all [start, feed, opVal, IsOk]

theorem start_some {op : Op} (hp : Plain utf8 kinds op) {s : Builder} (h : start op = some s) :
    ∃ out k, feed op .idle = ok out ∧ opKind op = some k ∧ k ∈ kinds ∧ s.kind = some k ∧
      After utf8 kinds [] out s ∧ op.isData = (match out with | .emit _ => true | .stay _ => false) := by
  cases op with
  | bool x =>
    cases h
    exact ⟨_, _, rfl, rfl, hp.kind _ rfl, rfl, .bool (xs := [x]) (hp.kind _ rfl), rfl⟩
  | int x =>
    cases h
    exact ⟨_, _, rfl, rfl, hp.kind _ rfl, rfl, .int (xs := [x]) (hp.kind _ rfl), rfl⟩
  | real x =>
    cases h
    exact ⟨_, _, rfl, rfl, hp.kind _ rfl, rfl,
      .float (xs := [x]) (hp.kind _ rfl) (.cons (.inl rfl) .nil), rfl⟩
  | complex re im => exact absurd rfl (hp.real re im)
  | str u codes =>
    cases h
    have := hp.encoding _ _ rfl
    subst this
    have hr := Rep.str (utf8 := u) (kinds := kinds) (ss := [codes]) (hp.kind _ rfl)
    cases u
    · exact ⟨.emit _, _, rfl, rfl, hp.kind _ rfl, rfl, by simpa [After, offs, strVal, List.range_succ] using hr, rfl⟩
    · exact ⟨.emit _, _, rfl, rfl, hp.kind _ rfl, rfl, by simpa [After, offs, strVal, List.range_succ] using hr, rfl⟩
  | beginList =>
    cases h
    exact ⟨_, _, rfl, rfl, hp.kind _ rfl, rfl,
      ⟨rfl, .listOpen (ls := []) (rest := []) (hp.kind _ rfl) (.unknown 0)⟩, rfl⟩
  | beginTuple n =>
    cases h
    refine ⟨_, .tuple n, rfl, rfl, hp.kind _ rfl, by simp [kind],
      ⟨rfl, .tupleOpen (rows := []) (fields := List.replicate n []) (cur := none)
        (by simpa using hp.kind _ rfl) (by simp) (by simp) ?_ (fun _ => ⟨rfl, rfl⟩) (by simp)⟩, rfl⟩
    intro i c hc
    simp only [List.getElem?_replicate, Option.ite_none_right_eq_some, Option.some.injEq] at hc
    obtain ⟨hi, rfl⟩ := hc
    simpa [List.getElem?_replicate, hi] using Rep.unknown (utf8 := utf8) (kinds := kinds) 0
  | beginRecord name =>
    cases h
    refine ⟨_, _, rfl, rfl, hp.kind _ rfl, rfl,
      ⟨rfl, .recordOpen (rows := []) (fields := []) (cur := none) (hp.kind _ rfl) ?_ rfl (by simp)
        (by simp) (by simp) (by simp) (by simp) (fun _ => ⟨rfl, rfl⟩) (by simp)⟩, rfl⟩
    rintro rfl
    exact hp.named rfl
  | _ => simp [start] at h

theorem pk_arange (items more : List Val) : (arange items.length).map (pk (items ++ more)) = items := by
  unfold arange
  rw [List.map_map]
  apply List.ext_getElem?
  intro i
  rw [List.getElem?_map]
  by_cases hi : i < items.length
  · rw [List.getElem?_range hi]
    have : ¬ ((i : Int) < 0) := by omega
    simp [pk, this, List.getElem?_append_left hi, hi]
  · rw [List.getElem?_eq_none (by simpa using hi), List.getElem?_eq_none (by omega)]; rfl

theorem mem_arange {n : Nat} {j : Int} (h : j ∈ arange n) : 0 ≤ j ∧ j < n := by
  simp only [arange, List.mem_map, List.mem_range] at h
  obtain ⟨i, hi, rfl⟩ := h
  omega

theorem uk_arange (items : List Val) (cols : List (List Val)) :
    List.zipWith (uk (items :: cols)) (List.replicate items.length 0) (arange items.length) = items := by
  apply List.ext_getElem?
  intro i
  rw [List.getElem?_zipWith, arange, List.getElem?_map, List.getElem?_replicate]
  by_cases hi : i < items.length
  · simp [uk, hi]
  · simp [hi]

theorem uok_arange (items : List Val) (cols : List (List Val)) :
    List.Forall₂ (UOk ((items :: cols).map List.length)) (List.replicate items.length 0)
      (arange items.length) := by
  refine List.forall₂_iff_get.mpr ⟨by simp [arange], fun i h1 h2 => ?_⟩
  have hi : i < items.length := by simpa using h1
  simp [UOk, arange, hi]

theorem withNull_sim {b : Builder} {done : List Val} (h : Rep utf8 kinds b done .idle) {hyp : Prop} :
    (withNull b).Tot hyp (Post utf8 kinds .null b done .idle) := by
  unfold withNull
  rw [h.length_eq, if_neg (by omega)]
  refine .ok ⟨.emit .null, rfl, ?_, fun hk => ?_⟩
  · have := Rep.option (index := arange done.length ++ [-1]) h (by
      intro j hj
      rcases List.mem_append.mp hj with hj | hj
      · exact .inr (mem_arange hj).2
      · simp only [List.mem_singleton] at hj; omega)
    rw [List.map_append] at this
    have e := pk_arange done []
    rw [List.append_nil] at e
    rw [e] at this
    simpa [After, pk] using this
  · rcases hk with hk | ⟨h1, h2⟩
    · simp [Part.isIdle] at hk
    · exact absurd h2.symm h1

theorem withOther_sim {b : Builder} {done : List Val} {op : Op} (hp : Plain utf8 kinds op)
    (h : Rep utf8 kinds b done .idle) {k : Kind} (hk : b.kind = some k) (hkk : k ∈ kinds)
    (hn : op ≠ .null) (hne : opKind op ≠ some k) :
    (withOther b op).Tot (IsOk (feed op .idle) ∧ Narrow op .idle)
      (Post utf8 kinds op b done .idle) := by
  unfold withOther
  cases hs : start op with
  | none => exact .err (fun h => start_none hs hn h.1)
  | some s =>
    obtain ⟨out, k', h1, h2, h3, h4, h5, h6⟩ := start_some hp hs
    dsimp only
    rw [h.length_eq, if_neg (by omega)]
    have hkind : Part.idle.isIdle = false ∨ (b.kind ≠ none ∧ opKind op = b.kind) → ∀ b' : Builder,
        b'.kind = b.kind := by
      rintro (hk' | ⟨_, hk'⟩)
      · simp [Part.isIdle] at hk'
      · rw [hk] at hk'; exact absurd hk' hne
    have hne' : k' ≠ k := by rintro rfl; exact hne h2
    have hks : [b, s].map kind = [k, k'].map some := by simp [hk, h4]
    have hnd : [k, k'].Nodup := by simpa using Ne.symm hne'
    have hin : ∀ x ∈ [k, k'], x ∈ kinds := by
      intro x hx
      simp only [List.mem_cons, List.not_mem_nil, or_false] at hx
      rcases hx with rfl | rfl
      · exact hkk
      · exact h3
    cases out with
    | emit v =>
      simp only at h6
      rw [if_pos h6]
      refine .ok ⟨_, h1, ?_, fun hk' => hkind hk' _⟩
      have := Rep.union (utf8 := utf8) (tags := List.replicate done.length 0 ++ [1])
        (index := arange done.length ++ [0]) (cs := [b, s]) (cols := [done, [v]]) (current := -1)
        (part := .idle) hks hnd hin
        (List.rel_append (R := UOk _) (uok_arange done [[v]]) (.cons (by simp [UOk]) .nil)) rfl ?_ (.inl ⟨rfl, rfl⟩)
      · rw [List.zipWith_append (by simp [arange]), uk_arange] at this
        simpa [After, uk] using this
      · intro i c items hc hi
        rw [ite_self]
        rcases i with _ | _ | i
        · simp at hc hi; subst hc hi; exact h
        · simp at hc hi; subst hc hi; simpa [After] using h5
        · simp at hc
    | stay p =>
      simp only at h6
      rw [if_neg (by simp [h6])]
      refine .ok ⟨_, h1, ?_, fun hk' => hkind hk' _⟩
      obtain ⟨h5, h7⟩ := h5
      have := Rep.union (utf8 := utf8) (tags := List.replicate done.length 0)
        (index := arange done.length) (cs := [b, s]) (cols := [done, []]) (current := 1)
        (part := p) hks hnd hin (uok_arange done [[]]) rfl ?_ (.inr ⟨by omega, by simp, h5⟩)
      · rw [uk_arange] at this
        exact ⟨h5, this⟩
      · intro i c items hc hi
        rcases i with _ | _ | i
        · simp at hc hi; subst hc hi; simpa using h
        · simp at hc hi; subst hc hi; simpa using h7
        · simp at hc

theorem unknown_sim {op : Op} (hp : Plain utf8 kinds op) (n : Nat) :
    Sim utf8 kinds cap op (unknown n) (List.replicate n .null) .idle := by
  have hkind : Part.idle.isIdle = false ∨ ((unknown n).kind ≠ none ∧ opKind op = (unknown n).kind) →
      ∀ b' : Builder, b'.kind = (unknown n).kind := by
    rintro (hk' | ⟨hk', _⟩)
    · simp [Part.isIdle] at hk'
    · simp [kind] at hk'
  unfold Sim
  by_cases hn : op = .null
  · subst hn
    simp only [step]
    refine .ok ⟨_, rfl, ?_, fun h => hkind h _⟩
    simp only [After, ← List.replicate_succ']
    exact .unknown (n + 1)
  have hstep : step cap (unknown n) op = (match start op with
      | none => notOpen
      | some s =>
        if n = 0 then ok s
        else ok (option (List.replicate n (-1) ++ if op.isData then [0] else []) s)) := by
    cases op <;> first | exact absurd rfl hn | rfl
  rw [hstep]
  cases hs : start op with
  | none => exact .err (fun h => start_none hs hn h.1)
  | some s =>
    obtain ⟨out, k', h1, h2, h3, h4, h5, h6⟩ := start_some hp hs
    dsimp only
    by_cases h0 : n = 0
    · subst h0
      rw [if_pos rfl]
      exact .ok ⟨_, h1, h5, fun h => hkind h _⟩
    · rw [if_neg h0]
      refine .ok ⟨_, h1, ?_, fun h => hkind h _⟩
      cases out with
      | emit v =>
        simp only at h6
        have := Rep.option (index := List.replicate n (-1) ++ [0]) h5 (by
          intro j hj
          rcases List.mem_append.mp hj with hj | hj
          · left; rw [List.eq_of_mem_replicate hj]; omega
          · right; simp only [List.mem_singleton] at hj; subst hj; simp)
        simpa [After, h6, pk] using this
      | stay p =>
        simp only at h6
        have := Rep.option (index := List.replicate n (-1)) h5.2 (by
          intro j hj
          left; rw [List.eq_of_mem_replicate hj]; omega)
        exact ⟨h5.1, by simpa [h6, pk] using this⟩

theorem leaf_kind {b : Builder} {op : Op} (h : opKind op ≠ b.kind) (b' : Builder) :
    Part.idle.isIdle = false ∨ (b.kind ≠ none ∧ opKind op = b.kind) → b'.kind = b.kind := by
  rintro (hk' | ⟨_, hk'⟩)
  · simp [Part.isIdle] at hk'
  · exact absurd hk' h

theorem bool_sim {op : Op} (hp : Plain utf8 kinds op) {xs : List Bool} (hk : .bool ∈ kinds) :
    Sim utf8 kinds cap op (bool xs) (xs.map (fun x => .atom (.bool x))) .idle := by
  have hr : Rep utf8 kinds (bool xs) _ _ := .bool hk
  have other : op ≠ .null → opKind op ≠ some .bool → (withOther (bool xs) op).Tot _ _ :=
    fun h1 h2 => withOther_sim hp hr rfl hk h1 h2
  unfold Sim
  cases op with
  | null => exact withNull_sim hr
  | bool x =>
    refine .ok ⟨_, rfl, ?_, fun _ => rfl⟩
    simpa [After] using Rep.bool (utf8 := utf8) (xs := xs ++ [x]) hk
  | _ => exact other (by simp) (by simp [opKind])

theorem int_sim {op : Op} (hp : Plain utf8 kinds op) {xs : List Int} (hk : .int ∈ kinds) :
    Sim utf8 kinds cap op (int xs) (xs.map (fun x => .atom (.int x))) .idle := by
  have hr : Rep utf8 kinds (int xs) _ _ := .int hk
  have other : op ≠ .null → opKind op ≠ some .int → (withOther (int xs) op).Tot _ _ :=
    fun h1 h2 => withOther_sim hp hr rfl hk h1 h2
  unfold Sim
  cases op with
  | null => exact withNull_sim hr
  | int x =>
    refine .ok ⟨_, rfl, ?_, fun _ => rfl⟩
    simpa [After] using Rep.int (utf8 := utf8) (xs := xs ++ [x]) hk
  | real x =>
    refine .ok ⟨_, rfl, ?_, leaf_kind (by simp [opKind, kind]) _⟩
    refine Rep.float (hp.kind _ rfl) (List.rel_append (R := NumIs) ?_ (.cons (.inl rfl) .nil))
    refine List.forall₂_iff_get.mpr ⟨by simp, fun i h1 h2 => ?_⟩
    simp [NumIs]
  | complex re im => exact absurd rfl (hp.real re im)
  | _ => exact other (by simp) (by simp [opKind])

theorem float_sim {op : Op} (hp : Plain utf8 kinds op) {xs : List Rat} {done : List Val}
    (hk : .float ∈ kinds) (hd : List.Forall₂ NumIs done xs) :
    Sim utf8 kinds cap op (float xs) done .idle := by
  have hr : Rep utf8 kinds (float xs) _ _ := .float hk hd
  have other : op ≠ .null → opKind op ≠ some .float → (withOther (float xs) op).Tot _ _ :=
    fun h1 h2 => withOther_sim hp hr rfl hk h1 h2
  unfold Sim
  cases op with
  | null => exact withNull_sim hr
  | int x =>
    refine .ok ⟨_, rfl, ?_, leaf_kind (by simp [opKind, kind]) _⟩
    exact Rep.float hk (List.rel_append (R := NumIs) hd (.cons (.inr ⟨x, rfl, rfl⟩) .nil))
  | real x =>
    refine .ok ⟨_, rfl, ?_, fun _ => rfl⟩
    exact Rep.float hk (List.rel_append (R := NumIs) hd (.cons (.inl rfl) .nil))
  | complex re im => exact absurd rfl (hp.real re im)
  | _ => exact other (by simp) (by simp [opKind])

theorem str_sim {op : Op} (hp : Plain utf8 kinds op) {ss : List (List Nat)} (hk : .str utf8 ∈ kinds) :
    Sim utf8 kinds cap op (str utf8 (offs ss) ss.flatten) (ss.map (strVal utf8)) .idle := by
  have hr : Rep utf8 kinds (str utf8 (offs ss) ss.flatten) _ _ := .str hk
  have other : op ≠ .null → opKind op ≠ some (.str utf8) →
      (withOther (str utf8 (offs ss) ss.flatten) op).Tot _ _ :=
    fun h1 h2 => withOther_sim hp hr rfl hk h1 h2
  unfold Sim
  cases op with
  | null => exact withNull_sim hr
  | str u codes =>
    have := hp.encoding _ _ rfl
    subst this
    have key : Rep u kinds (str u (offs ss ++ [(ss.flatten ++ codes).length]) (ss.flatten ++ codes))
        (ss.map (strVal u) ++ [strVal u codes]) .idle := by
      have := Rep.str (utf8 := u) (kinds := kinds) (ss := ss ++ [codes]) hk
      rw [offs_append] at this
      simpa using this
    cases u
    · exact .ok ⟨_, rfl, key, fun _ => rfl⟩
    · exact .ok ⟨_, rfl, key, fun _ => rfl⟩
  | _ => exact other (by simp) (by simp [opKind])

theorem listIdle_sim {op : Op} (hp : Plain utf8 kinds op) {ls : List (List Val)} {c : Builder}
    (hk : .list ∈ kinds) (hc : Rep utf8 kinds c ls.flatten .idle) :
    Sim utf8 kinds cap op (list (ints (offs ls)) c false) (ls.map .list) .idle := by
  have hr := Rep.listIdle hk hc
  have other : op ≠ .null → opKind op ≠ some .list →
      (withOther (list (ints (offs ls)) c false) op).Tot _ _ :=
    fun h1 h2 => withOther_sim hp hr rfl hk h1 h2
  unfold Sim
  cases op with
  | null => exact withNull_sim hr
  | beginList =>
    refine .ok ⟨_, rfl, ⟨rfl, ?_⟩, fun _ => rfl⟩
    exact .listOpen (rest := []) hk (by simpa using hc)
  | _ => exact other (by simp) (by simp [opKind])

theorem ints_append (a b : List Nat) : ints (a ++ b) = ints a ++ ints b := by simp [ints]

theorem listOpen_sim {op : Op} {ls : List (List Val)} {rest : List Val} {sub : Part} {c : Builder}
    (hk : .list ∈ kinds) (hc : Rep utf8 kinds c (ls.flatten ++ rest) sub)
    (ih : Sim utf8 kinds cap op c (ls.flatten ++ rest) sub) :
    Sim utf8 kinds cap op (list (ints (offs ls)) c true) (ls.map .list) (.list rest sub) := by
  unfold Sim at ih ⊢
  simp only [step, feed, Bool.true_eq_false, if_false]
  rw [hc.active_eq]
  by_cases he : op = .endList ∧ sub.isIdle = true
  · obtain ⟨rfl, he⟩ := he
    have := Part.eq_idle he
    subst this
    simp only [Part.isIdle, Bool.not_true, and_self, if_true]
    refine .ok ⟨_, rfl, ?_, fun _ => rfl⟩
    have := Rep.listIdle (ls := ls ++ [rest]) (c := c) hk (by simpa using hc)
    rw [offs_append, ints_append] at this
    rw [hc.length_eq]
    simpa [After, ints] using this
  · rw [if_neg (by simpa using he), if_neg (by rw [and_comm]; simpa using he)]
    refine (ih.mono (fun h => ⟨?_, h.2⟩) (fun _ h => h)).bind (fun c' hc' => ?_)
    · obtain ⟨⟨o, h⟩, _⟩ := h
      obtain ⟨o', h, _⟩ := bind_eq_ok.mp h
      exact ⟨o', h⟩
    · obtain ⟨out, h1, h2, _⟩ := hc'
      refine .ok ?_
      cases out with
      | emit v =>
        refine ⟨.stay (.list (rest ++ [v]) .idle), by simp only [feed]; rw [if_neg (by rw [and_comm]; simpa using he), h1]; rfl, ⟨rfl, ?_⟩, fun _ => rfl⟩
        exact .listOpen hk (by rw [← List.append_assoc]; exact h2)
      | stay p =>
        refine ⟨.stay (.list rest p), by simp only [feed]; rw [if_neg (by rw [and_comm]; simpa using he), h1]; rfl, ⟨rfl, ?_⟩, fun _ => rfl⟩
        exact .listOpen hk h2.2

end Builder
end Awk
