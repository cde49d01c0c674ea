import Verif.Lemmas.BuilderTuple
/-
The commands of records.
-/

namespace Awk
open R Spec
open Content (pk uk UOk)

namespace Builder

variable {utf8 : Bool} {kinds : List Kind} {cap : Nat → Nat}

theorem findKey_some {keys : List String} {start i : Nat} {key : String}
    (h : findKey keys start key = some i) : keys[i]? = some key := by
  unfold findKey at h
  split at h
  · rename_i j hj
    cases h
    obtain ⟨h1, h2, _⟩ := List.findIdx?_eq_some_iff_getElem.mp hj
    rw [List.getElem_drop] at h2
    rw [List.length_drop] at h1
    rw [List.getElem?_eq_getElem (by omega)]
    simpa using h2
  · obtain ⟨h1, h2, _⟩ := List.findIdx?_eq_some_iff_getElem.mp h
    rw [List.getElem_take] at h2
    rw [List.length_take] at h1
    rw [List.getElem?_eq_getElem (by omega)]
    simpa using h2

theorem findKey_none {keys : List String} {start : Nat} {key : String}
    (h : findKey keys start key = none) : key ∉ keys := by
  unfold findKey at h
  split at h
  · cases h
  · rename_i hj
    rw [List.idxOf?_eq_none_iff] at hj h
    intro hk
    rw [← List.take_append_drop start keys, List.mem_append] at hk
    exact hk.elim h hj

theorem lookup_none {α : Type} {fields : List (String × α)} {k : String}
    (h : k ∉ fields.map Prod.fst) : fields.lookup k = none := by
  induction fields with
  | nil => rfl
  | cons e fields ih =>
    simp only [List.map_cons, List.mem_cons, not_or] at h
    simp only [List.lookup]
    rw [show (k == e.1) = false by simpa using h.1]
    exact ih h.2

theorem lookup_mem {α : Type} {fields : List (String × α)} {k : String} {a : α}
    (hn : (fields.map Prod.fst).Nodup) (h : (k, a) ∈ fields) : fields.lookup k = some a := by
  induction fields with
  | nil => simp at h
  | cons e fields ih =>
    simp only [List.map_cons, List.nodup_cons] at hn
    simp only [List.lookup]
    rcases List.mem_cons.mp h with rfl | h
    · simp
    · have : k ≠ e.1 := by
        rintro rfl
        exact hn.1 (List.mem_map.mpr ⟨_, h, rfl⟩)
      rw [show (k == e.1) = false by simpa using this]
      exact ih hn.2 h

theorem lookup_some_mem {α : Type} {fields : List (String × α)} {k : String} {a : α}
    (h : fields.lookup k = some a) : (k, a) ∈ fields := by
  induction fields with
  | nil => simp at h
  | cons e fields ih =>
    obtain ⟨k', b⟩ := e
    simp only [List.lookup] at h
    split at h
    · rename_i heq
      have : k = k' := by simpa using heq
      subst this
      cases h
      exact List.mem_cons_self
    · exact List.mem_cons_of_mem _ (ih h)

theorem giveTo_keys {fields : List (String × List Val)} {key : String} {v : Val} :
    (giveTo fields key v).map Prod.fst = fields.map Prod.fst := by
  simp only [giveTo, List.map_map]
  apply List.map_congr_left
  intro e _
  simp only [Function.comp]
  split <;> rfl

theorem lookup_giveTo {fields : List (String × List Val)} {key k : String} {v : Val} :
    (giveTo fields key v).lookup k =
      if k = key then (fields.lookup k).map (fun l => l ++ [v]) else fields.lookup k := by
  induction fields with
  | nil => simp [giveTo]
  | cons e fields ih =>
    obtain ⟨k', l⟩ := e
    simp only [giveTo] at ih ⊢
    simp only [List.map_cons]
    by_cases h1 : k' = key
    · subst h1
      simp only [if_true, List.lookup]
      by_cases h2 : k = k'
      · subst h2; simp
      · rw [show (k == k') = false by simpa using h2]
        exact ih
    · simp only [h1, if_false, List.lookup]
      by_cases h2 : k = k'
      · subst h2; simp [h1]
      · rw [show (k == k') = false by simpa using h2]
        exact ih

theorem lookup_withKey {fields : List (String × List Val)} {key k : String} :
    ((withKey fields key).lookup k).getD [] = (fields.lookup k).getD [] := by
  unfold withKey
  split
  · rfl
  · rename_i h
    induction fields with
    | nil =>
      simp only [List.nil_append, List.lookup]
      cases h : (k == key) <;> simp
    | cons e fields ih =>
      obtain ⟨k', l⟩ := e
      simp only [List.map_cons, List.mem_cons, not_or] at h
      simp only [List.cons_append, List.lookup]
      split
      · rfl
      · exact ih h.2

theorem withKey_nodup {fields : List (String × List Val)} {key : String}
    (h : (fields.map Prod.fst).Nodup) : ((withKey fields key).map Prod.fst).Nodup := by
  unfold withKey
  split
  · exact h
  · rename_i hk
    rw [List.map_append, List.nodup_append]
    refine ⟨h, by simp, ?_⟩
    intro a ha b hb
    simp only [List.map_cons, List.map_nil, List.mem_singleton] at hb
    subst hb
    rintro rfl
    exact hk ha

theorem mem_withKey {fields : List (String × List Val)} {key k : String} :
    k ∈ (withKey fields key).map Prod.fst ↔ k ∈ fields.map Prod.fst ∨ k = key := by
  unfold withKey
  split
  · rename_i hk
    constructor
    · exact .inl
    · rintro (h | rfl)
      · exact h
      · exact hk
  · simp

/-- The fields of a record that is ended. -/
def endFields (fields : List (String × List Val)) : R (List (String × Val)) :=
  mapR (fun e => single e.2 >>= fun v => ok (e.1, v)) fields

theorem endFields_ok {fields : List (String × List Val)} {fs : List (String × Val)}
    (h : endFields fields = ok fs) : fs.map Prod.fst = fields.map Prod.fst ∧ ∀ k,
      (((fields.lookup k).getD []) ++ if ((fields.lookup k).getD []).length = 0 then [.null] else [])
        = [colOf k fs] := by
  unfold endFields at h
  induction fields generalizing fs with
  | nil =>
    simp only [mapR] at h
    cases h
    exact ⟨rfl, fun k => by simp [colOf]⟩
  | cons e fields ih =>
    obtain ⟨k', l⟩ := e
    simp only [mapR] at h
    obtain ⟨b, h1, h⟩ := bind_eq_ok.mp h
    obtain ⟨v, h2, h1⟩ := bind_eq_ok.mp h1
    obtain ⟨bs, h3, h⟩ := bind_eq_ok.mp h
    cases h
    cases h1
    obtain ⟨g1, g2⟩ := ih h3
    refine ⟨by simp [g1], fun k => ?_⟩
    unfold colOf
    simp only [List.lookup]
    by_cases hk : k = k'
    · subst hk
      simpa using single_ok.mp h2
    · have hb : (k == k') = false := by simpa using hk
      simp only [hb]
      exact g2 k

theorem step_record {cs : List Builder} {keys : List String} {name : Option String} {len next : Int}
    {tryFrom : Nat} {op : Op} (h1 : ∀ k, op ≠ .field k) (h2 : op ≠ .endRecord) :
    ∃ e, step cap (record cs keys name len true next tryFrom) op =
      if next = -1 then err e
      else stepNth cap cs next op >>= fun cs => ok (record cs keys name len true next tryFrom) := by
  cases op with
  | field k => exact absurd rfl (h1 k)
  | endRecord => exact absurd rfl h2
  | beginRecord n => exact ⟨_, by simp only [step]; simp; rfl⟩
  | _ => exact ⟨_, by simp only [step]; rfl⟩

theorem feed_record {fields : List (String × List Val)} {cur : Option String} {sub : Part} {op : Op}
    (h : sub.isIdle = false ∨ (∀ k, op ≠ .field k) ∧ op ≠ .endRecord) :
    feed op (.record fields cur sub) = match cur with
      | none => err "no field has been chosen"
      | some key => feed op sub >>= fun out => match out with
        | .emit v => ok (.stay (.record (giveTo fields key v) cur .idle))
        | .stay p => ok (.stay (.record fields cur p)) := by
  cases hs : sub.isIdle with
  | false => simp only [feed, hs, Bool.false_eq_true, if_false]; rfl
  | true =>
    simp only [hs, Bool.true_eq_false, false_or] at h
    simp only [feed, hs, if_true]
    cases op with
    | field k => exact absurd rfl (h.1 k)
    | endRecord => exact absurd rfl h.2
    | _ => rfl

theorem nameMatches_iff {stored name : Option String} (h1 : stored ≠ some "") (h2 : name ≠ some "") :
    nameMatches stored name = true ↔ stored = name := by
  unfold nameMatches
  cases name with
  | none => simp
  | some s =>
    cases stored with
    | none =>
      simp only [Option.getD_none, decide_eq_true_eq, reduceCtorEq, iff_false]
      rintro rfl
      exact h2 rfl
    | some t => simp

theorem recordIdle_sim {op : Op} (hp : Plain utf8 kinds op) {cs : List Builder}
    {keys : List String} {name : Option String} {rows : List (List (String × Val))} {next : Int}
    {tryFrom : Nat} (hk : .record name ∈ kinds) (hname : name ≠ some "")
    (hl : keys.length = cs.length) (hnd : keys.Nodup)
    (hrows : ∀ fs ∈ rows, (fs.map Prod.fst).Nodup ∧ ∀ k ∈ fs.map Prod.fst, k ∈ keys)
    (hcs : ∀ (i : Nat) c k, cs[i]? = some c → keys[i]? = some k →
      Rep utf8 kinds c (rows.map (colOf k)) .idle) :
    Sim utf8 kinds cap op (record cs keys name rows.length false next tryFrom) (rows.map .record)
      .idle := by
  have hr := Rep.recordIdle (next := next) (tryFrom := tryFrom) hk hname hl hnd hrows hcs
  have other : op ≠ .null → opKind op ≠ some (.record name) →
      (withOther (record cs keys name rows.length false next tryFrom) op).Tot _ _ :=
    fun h1 h2 => withOther_sim hp hr rfl hk h1 h2
  unfold Sim
  cases op with
  | null => exact withNull_sim hr
  | beginRecord n =>
    simp only [step]
    have h1 : ¬ ((rows.length : Int) = -1) := by omega
    simp only [h1, if_false]
    have hn : n ≠ some "" := by rintro rfl; exact hp.named rfl
    by_cases hm : nameMatches name n = true
    · have := (nameMatches_iff hname hn).mp hm
      subst this
      simp only [hm, and_self, if_true]
      refine .ok ⟨_, rfl, ⟨rfl, ?_⟩, fun _ => rfl⟩
      refine .recordOpen hk hname hl hnd hrows (by simp) (by simp) (fun i c k hc hk => ?_)
        (fun _ => ⟨rfl, rfl⟩) (by simp)
      simpa using hcs i c k hc hk
    · simp only [hm, and_false, if_false, if_true]
      refine other (by simp) ?_
      simp only [opKind, ne_eq, Option.some.injEq, Kind.record.injEq]
      rintro rfl
      exact hm ((nameMatches_iff hname hn).mpr rfl)
  | _ => exact other (by simp) (by simp [opKind])

theorem recordOpen_sim {op : Op} (hp : Plain utf8 kinds op) {cs : List Builder}
    {keys : List String} {name : Option String} {rows : List (List (String × Val))} {next : Int}
    {tryFrom : Nat} {fields : List (String × List Val)} {cur : Option String} {sub : Part}
    (hk : .record name ∈ kinds) (hname : name ≠ some "")
    (hl : keys.length = cs.length) (hnd : keys.Nodup)
    (hrows : ∀ fs ∈ rows, (fs.map Prod.fst).Nodup ∧ ∀ k ∈ fs.map Prod.fst, k ∈ keys)
    (hfn : (fields.map Prod.fst).Nodup) (hfk : ∀ k ∈ fields.map Prod.fst, k ∈ keys)
    (hcs : ∀ (i : Nat) c k, cs[i]? = some c → keys[i]? = some k →
      Rep utf8 kinds c (rows.map (colOf k) ++ (fields.lookup k).getD [])
        (if cur = some k then sub else .idle))
    (hnone : cur = none → sub = .idle ∧ next = -1)
    (hsome : ∀ k, cur = some k →
      k ∈ fields.map Prod.fst ∧ ∃ i : Nat, keys[i]? = some k ∧ next = i)
    (ih : ∀ op, Plain utf8 kinds op → ∀ (i : Nat) c k, cs[i]? = some c → keys[i]? = some k →
      Sim utf8 kinds cap op c (rows.map (colOf k) ++ (fields.lookup k).getD [])
        (if cur = some k then sub else .idle))
    (hnull : Plain utf8 kinds .null) :
    Sim utf8 kinds cap op (record cs keys name rows.length true next tryFrom) (rows.map .record)
      (.record fields cur sub) := by
  -- the command goes to the field
  have pass : sub.isIdle = false ∨ (∀ k, op ≠ .field k) ∧ op ≠ .endRecord →
      ∀ key, cur = some key →
      (stepNth cap cs next op >>= fun cs =>
        ok (record cs keys name (rows.length : Int) true next tryFrom)).Tot
        (IsOk (feed op (.record fields cur sub)) ∧ Narrow op (.record fields cur sub))
        (Post utf8 kinds op (record cs keys name rows.length true next tryFrom) (rows.map .record)
          (.record fields cur sub)) := by
    intro hpass key hi
    have hfeed := feed_record (fields := fields) (cur := cur) hpass
    rw [hi] at hfeed
    dsimp only at hfeed
    obtain ⟨hkf, i, hik, hnext⟩ := hsome key hi
    have hlt : i < cs.length := by
      have := (List.getElem?_eq_some_iff.mp hik).1
      omega
    have hc : cs[i]? = some cs[i] := List.getElem?_eq_getElem hlt
    -- other positions have other keys
    have hother : ∀ j k, j ≠ i → keys[j]? = some k → k ≠ key := by
      rintro j k hj hjk rfl
      obtain ⟨h1, h2⟩ := List.getElem?_eq_some_iff.mp hjk
      obtain ⟨h3, h4⟩ := List.getElem?_eq_some_iff.mp hik
      exact hj ((List.Nodup.getElem_inj_iff hnd).mp (h2.trans h4.symm))
    rw [hnext, stepNth_eq hc, bind_assoc]
    have ihi := ih op hp i _ key hc hik
    rw [if_pos hi] at ihi
    refine (ihi.mono (fun h => ⟨?_, h.2⟩) (fun _ h => h)).bind (fun c' hc' => ?_)
    · obtain ⟨⟨o, h⟩, _⟩ := h
      rw [hi, hfeed] at h
      obtain ⟨o', h, _⟩ := bind_eq_ok.mp h
      exact ⟨o', h⟩
    · obtain ⟨out, h1, h2, _⟩ := hc'
      rw [h1] at hfeed
      rw [bind_ok]
      have hset : (cs.set i c').length = cs.length := List.length_set
      cases out with
      | emit v =>
        refine .ok ⟨.stay (.record (giveTo fields key v) cur .idle), by rw [hi, hfeed]; rfl,
          ⟨rfl, ?_⟩, fun _ => rfl⟩
        refine .recordOpen hk hname (by rw [hset]; exact hl) hnd hrows (by rw [giveTo_keys]; exact hfn)
          (by rw [giveTo_keys]; exact hfk) (fun j d k hd hkj => ?_) (by simp [hi]) (by
            intro k hk'
            rw [giveTo_keys, ← hnext]
            exact hsome k hk')
        rw [ite_self, lookup_giveTo]
        by_cases hj : j = i
        · subst hj
          rw [List.getElem?_set_self hlt] at hd
          cases hd
          rw [hik] at hkj
          cases hkj
          rw [if_pos rfl]
          obtain ⟨l, hl'⟩ : ∃ l, fields.lookup key = some l := by
            obtain ⟨e, he, rfl⟩ := List.mem_map.mp hkf
            exact ⟨e.2, lookup_mem hfn he⟩
          rw [hl'] at h2 ⊢
          simpa [After] using h2
        · rw [List.getElem?_set_ne (Ne.symm hj)] at hd
          have := hcs j d k hd hkj
          have hne := hother j k hj hkj
          rw [hi, if_neg (by simpa using Ne.symm hne)] at this
          rw [if_neg hne]
          exact this
      | stay p =>
        refine .ok ⟨.stay (.record fields cur p), by rw [hi, hfeed]; rfl, ⟨rfl, ?_⟩, fun _ => rfl⟩
        refine .recordOpen hk hname (by rw [hset]; exact hl) hnd hrows hfn hfk
          (fun j d k hd hkj => ?_) (by simp [hi]) (by
            intro k hk'
            rw [← hnext]
            exact hsome k hk')
        by_cases hj : j = i
        · subst hj
          rw [List.getElem?_set_self hlt] at hd
          cases hd
          rw [hik] at hkj
          cases hkj
          rw [if_pos hi]
          exact h2.2
        · rw [List.getElem?_set_ne (Ne.symm hj)] at hd
          have := hcs j d k hd hkj
          have hne := hother j k hj hkj
          rw [hi, if_neg (by simpa using Ne.symm hne)] at this ⊢
          exact this
  have idle : idleAt cs next = ok sub.isIdle := by
    cases hc : cur with
    | none =>
      obtain ⟨h1, h2⟩ := hnone hc
      rw [h1, h2]; rfl
    | some key =>
      obtain ⟨_, i, hik, hnext⟩ := hsome key hc
      have hlt : i < cs.length := by
        have := (List.getElem?_eq_some_iff.mp hik).1
        omega
      have h3 : cs[i]? = some cs[i] := List.getElem?_eq_getElem hlt
      have := hcs i _ key h3 hik
      rw [if_pos hc] at this
      rw [hnext]
      exact idleAt_some h3 this
  have active : sub.isIdle = false → ∃ i, cur = some i := by
    intro h
    cases hc : cur with
    | none => obtain ⟨h1, h2⟩ := hnone hc; rw [h1] at h; simp [Part.isIdle] at h
    | some i => exact ⟨i, rfl⟩
  unfold Sim
  by_cases hix : ∃ k, op = .field k
  · obtain ⟨key, rfl⟩ := hix
    simp only [step, Bool.true_eq_false, if_false]
    rw [idle, bind_ok]
    cases hs : sub.isIdle with
    | false =>
      obtain ⟨j, hj⟩ := active hs
      exact pass (.inl hs) j hj
    | true =>
      have := Part.eq_idle hs
      subst this
      have hfeed : feed (.field key) (.record fields cur .idle) =
          ok (.stay (.record (withKey fields key) (some key) .idle)) := rfl
      rw [if_pos rfl]
      cases hfk' : findKey keys tryFrom key with
      | some i =>
        have hik := findKey_some hfk'
        refine .ok ⟨_, hfeed, ⟨rfl, ?_⟩, fun _ => rfl⟩
        refine .recordOpen hk hname hl hnd hrows (withKey_nodup hfn) ?_ (fun j d k hd hkj => ?_)
          (by simp) ?_
        · intro k hk'
          rcases mem_withKey.mp hk' with h | rfl
          · exact hfk k h
          · exact List.mem_of_getElem? hik
        · have := hcs j d k hd hkj
          rw [ite_self] at this ⊢
          rw [lookup_withKey]
          exact this
        · intro k hk'
          cases hk'
          exact ⟨mem_withKey.mpr (.inr rfl), i, hik, rfl⟩
      | none =>
        have hnew := findKey_none hfk'
        refine .ok ⟨_, hfeed, ⟨rfl, ?_⟩, fun _ => rfl⟩
        refine .recordOpen hk hname (by simp [hl]) ?_ ?_ (withKey_nodup hfn) ?_
          (fun j d k hd hkj => ?_) (by simp) ?_
        · rw [List.nodup_append]
          refine ⟨hnd, by simp, ?_⟩
          intro a ha b hb
          simp only [List.mem_singleton] at hb
          subst hb
          rintro rfl
          exact hnew ha
        · intro fs hfs
          obtain ⟨h1, h2⟩ := hrows fs hfs
          exact ⟨h1, fun k hk' => List.mem_append_left _ (h2 k hk')⟩
        · intro k hk'
          rcases mem_withKey.mp hk' with h | rfl
          · exact List.mem_append_left _ (hfk k h)
          · exact List.mem_append_right _ (by simp)
        · rw [ite_self, lookup_withKey]
          by_cases hj : j < cs.length
          · rw [List.getElem?_append_left hj] at hd
            rw [List.getElem?_append_left (by omega)] at hkj
            have := hcs j d k hd hkj
            rw [ite_self] at this
            exact this
          · have hj' : j = cs.length := by
              have := (List.getElem?_eq_some_iff.mp hd).1
              simp at this; omega
            subst hj'
            rw [List.getElem?_append_right (by omega)] at hd hkj
            rw [hl] at hkj
            simp only [Nat.sub_self, List.getElem?_cons_zero, Option.some.injEq] at hd hkj
            subst hd hkj
            rw [lookup_none (fun h => hnew (hfk key h)), Option.getD_none, List.append_nil]
            have hnulls : rows.map (colOf key) = List.replicate rows.length .null := by
              refine List.eq_replicate_iff.mpr ⟨by simp, ?_⟩
              intro v hv
              obtain ⟨fs, hfs, rfl⟩ := List.mem_map.mp hv
              unfold colOf
              rw [lookup_none (fun h => hnew ((hrows fs hfs).2 key h))]; rfl
            rw [hnulls]
            by_cases h0 : rows.length = 0
            · simp only [h0, Int.natCast_zero, if_true]
              exact .unknown 0
            · rw [if_neg (by omega)]
              have := Rep.option (utf8 := utf8) (kinds := kinds)
                (index := List.replicate rows.length (-1)) (.unknown 0) (by
                intro j hj
                left; rw [List.eq_of_mem_replicate hj]; omega)
              simpa [pk] using this
        · intro k hk'
          cases hk'
          exact ⟨mem_withKey.mpr (.inr rfl), keys.length, by simp, rfl⟩
  by_cases hend : op = .endRecord
  · subst hend
    simp only [step, Bool.true_eq_false, if_false]
    rw [idle, bind_ok]
    cases hs : sub.isIdle with
    | false =>
      obtain ⟨j, hj⟩ := active hs
      exact pass (.inl hs) j hj
    | true =>
      have := Part.eq_idle hs
      subst this
      have hfeed : feed .endRecord (.record fields cur .idle) =
          endFields fields >>= fun fs => ok (.emit (.record fs)) := rfl
      rw [hfeed, if_pos rfl]
      have hkey : ∀ i, i < cs.length → ∃ k, keys[i]? = some k :=
        fun i hi => ⟨keys[i], List.getElem?_eq_getElem (by omega)⟩
      refine (fillNulls_sim (utf8 := utf8) (kinds := kinds)
        (D := fun i => rows.map (colOf (keys[i]?.getD "")) ++
          (fields.lookup (keys[i]?.getD "")).getD [])
        (fun i c hc => ?_) (fun hy i hi => ?_)).bind (fun cs' hcs' => ?_)
      · obtain ⟨k, hk'⟩ := hkey i (List.getElem?_eq_some_iff.mp hc).1
        have e1 := hcs i c k hc hk'
        have e2 := ih .null hnull i c k hc hk'
        rw [ite_self] at e1 e2
        rw [hk']
        exact ⟨e1, by simp, e2⟩
      · obtain ⟨⟨o, h1⟩, _⟩ := hy
        obtain ⟨fs, h1, _⟩ := bind_eq_ok.mp h1
        have := congrArg List.length ((endFields_ok h1).2 (keys[i]?.getD ""))
        simp only [List.length_append, List.length_singleton, List.length_map] at this ⊢
        omega
      · obtain ⟨h1, h2, h3⟩ := hcs'
        have hall : ∀ e ∈ fields, IsOk (single e.2) := by
          intro e he
          have hek : e.1 ∈ keys := hfk e.1 (List.mem_map.mpr ⟨e, he, rfl⟩)
          obtain ⟨i, hi, hie⟩ := List.getElem_of_mem hek
          have := h2 i (by omega)
          rw [List.getElem?_eq_getElem hi, Option.getD_some, hie, lookup_mem hfn (a := e.2) he] at this
          refine single_le.mpr ?_
          simpa using this
        have hfs : ∃ fs, endFields fields = ok fs :=
          (mapR_tot (h := True) (P := fun _ _ => True) (fun e he => by
            obtain ⟨v, hv⟩ := hall e he
            rw [hv]; exact .ok trivial)).2 trivial
        obtain ⟨fs, hfs⟩ := hfs
        obtain ⟨g1, g2⟩ := endFields_ok hfs
        refine .ok ⟨.emit (.record fs), by rw [hfeed, hfs]; rfl, ?_, fun _ => rfl⟩
        have := Rep.recordIdle (utf8 := utf8) (kinds := kinds) (cs := cs') (rows := rows ++ [fs])
          (next := next) (tryFrom := tryFrom) hk hname (by omega) hnd ?_ ?_
        · simpa [After] using this
        · intro r hr
          rcases List.mem_append.mp hr with hr | hr
          · exact hrows r hr
          · simp only [List.mem_singleton] at hr
            subst hr
            rw [g1]
            exact ⟨hfn, hfk⟩
        · intro i c' k hc' hik
          have := h3 i c' hc'
          rw [hik] at this
          simp only [Option.getD_some, List.length_append, List.length_map, List.append_assoc] at this
          have e : rows.length + ((fields.lookup k).getD []).length = rows.length ↔
            ((fields.lookup k).getD []).length = 0 := by omega
          simp only [e] at this
          rw [g2 k] at this
          rw [List.map_append, List.map_singleton]
          exact this
  · have hnot : (∀ k, op ≠ .field k) ∧ op ≠ .endRecord := ⟨fun i h => hix ⟨i, h⟩, hend⟩
    obtain ⟨e, he⟩ := step_record (cap := cap) (cs := cs) (keys := keys) (name := name)
      (len := rows.length) (next := next) (tryFrom := tryFrom) hnot.1 hnot.2
    rw [he]
    cases hc : cur with
    | none =>
      obtain ⟨_, h2⟩ := hnone hc
      rw [if_pos h2]
      refine .err ?_
      rintro ⟨⟨o, h⟩, _⟩
      rw [feed_record (.inr hnot)] at h
      cases h
    | some i =>
      obtain ⟨_, j, _, h2⟩ := hsome i hc
      rw [if_neg (by omega)]
      have := pass (.inr hnot) i hc
      rw [hc] at this
      exact this

end Builder
end Awk
