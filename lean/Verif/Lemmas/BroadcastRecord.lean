import Verif.Lemmas.BroadcastList
import Verif.Lemmas.Field
/-
The step for records of `apply` of `broadcast_and_apply`.
-/

namespace Awk
open R

theorem names_mkRecord (keys : Option (List String)) (vs : List Val) :
    (mkRecord keys vs).names = match keys with
      | some ks => ks.take vs.length
      | none => Content.recordKeys none vs.length := by
  cases keys with
  | none =>
    simp only [mkRecord, Val.names, Val.named, Content.recordKeys, List.map_map]
    refine List.ext_getElem (by simp) (fun i _ _ => by simp)
  | some ks =>
    simp only [mkRecord, Val.names, Val.named]
    refine List.ext_getElem (by simp [Nat.min_comm]) (fun i _ _ => by simp)

theorem fieldOr_mkRecord (key : String) (keys : Option (List String)) (vs : List Val) :
    Val.fieldOr key (mkRecord keys vs) = Val.field key (mkRecord keys vs) := by
  cases keys <;> rfl

theorem isRecord_mkRecord (keys : Option (List String)) (vs : List Val) :
    (mkRecord keys vs).IsRecord := by
  cases keys with
  | none => exact .inr ⟨_, rfl⟩
  | some ks => exact .inl ⟨_, rfl⟩

namespace Content

variable {reg : Bool} {W : Nat → Content → Prop} {b : Nat}
  {P Q : List Val → List Val → Prop} {k : Nat}

theorem first_index {ks : List String} {key : String} (h : key ∈ ks) :
    ∃ i, i < ks.length ∧ ks[i]? = some key ∧ (∀ j, j < i → ks[j]? ≠ some key) ∧
      ks.findIdx? (fun k => k == key) = some i := by
  cases hf : ks.findIdx? (fun k => k == key) with
  | none =>
    rw [List.findIdx?_eq_none_iff] at hf
    have := hf key h
    simp at this
  | some i =>
    rw [List.findIdx?_eq_some_iff_getElem] at hf
    obtain ⟨h1, h2, h3⟩ := hf
    refine ⟨i, h1, ?_, ?_, rfl⟩
    · rw [List.getElem?_eq_getElem h1]; simpa using h2
    · intro j hj
      have := h3 j hj
      rw [List.getElem?_eq_getElem (by omega)]
      simpa using this

theorem fieldOfKey_inv {keys : Option (List String)} {cs : List Content} {key : String} {d : Content}
    (hk : key ∈ recordKeys keys cs.length) (hn : keys = none → cs.length < 2 ^ 31)
    (h : fieldOfKey keys cs key = ok d) :
    ∃ i, Named keys cs.length key i ∧ cs[i]? = some d := by
  unfold fieldOfKey at h
  cases keys with
  | none =>
    simp only [recordKeys, List.mem_map, List.mem_range] at hk
    obtain ⟨i, hi, rfl⟩ := hk
    have hnm : Named none cs.length (toString i) i := ⟨hi, rfl, by have := hn rfl; omega⟩
    rw [fieldIndex_ok hnm, bind_ok, rd_nat_ok hi] at h
    simp only [ok.injEq] at h
    exact ⟨i, hnm, by rw [List.getElem?_eq_getElem hi, h]⟩
  | some ks =>
    obtain ⟨i, h1, h2, h3, h4⟩ := first_index hk
    simp only [recordKeys] at h1 h2 h3 h4
    simp only [fieldIndex, Option.bind_some, h4, bind_ok] at h
    by_cases hi : i < cs.length
    · rw [rd_nat_ok hi] at h
      simp only [ok.injEq] at h
      exact ⟨i, ⟨hi, h2, h3⟩, by rw [List.getElem?_eq_getElem hi, h]⟩
    · exfalso
      unfold rd at h
      simp [show cs.length ≤ i by omega] at h

theorem Named.mem_names {keys : Option (List String)} {vs : List Val} {key : String} {i : Nat}
    (h : Named keys vs.length key i) : key ∈ (mkRecord keys vs).names := by
  rw [names_mkRecord]
  obtain ⟨hi, h⟩ := h
  cases keys with
  | none =>
    simp only [recordKeys, List.mem_map, List.mem_range]
    exact ⟨i, hi, h.1.symm⟩
  | some ks =>
    refine List.mem_of_getElem? (i := i) ?_
    rw [List.getElem?_take, if_pos hi]; exact h.1

theorem names_sub {keys : Option (List String)} {vs : List Val} {key : String}
    (h : key ∈ (mkRecord keys vs).names) : key ∈ recordKeys keys vs.length := by
  rw [names_mkRecord] at h
  cases keys with
  | none => exact h
  | some ks => exact List.mem_of_mem_take h

/-- The field `key` of one input. -/
theorem fieldNext_ok (hW : Fam reg W) {key : String} {keys : List String} {c c' : Content}
    (h : Binput W (b + 1) c)
    (hf : c.isFlat = true) (hk : key ∈ keys) (hka : keysAgree keys c = true)
    (h1 : fieldNext key c = ok c') :
    Binput W (b + 1) c' ∧ c'.len = c.len ∧ ∀ i, i < c.len → c'.valD i = (c.valD i).fieldOr key ∧
      ((c.valD i).IsRecord → key ∈ (c.valD i).names) := by
  cases c <;> simp only [isFlat, Bool.false_eq_true] at hf
  case numpy p dt data =>
    simp only [fieldNext, ok.injEq] at h1; subst h1
    refine ⟨h, rfl, fun i hi => ?_⟩
    simp only [Content.len] at hi
    rw [valD_numpy hi]
    exact ⟨rfl, fun hr => by rcases hr with ⟨_, hr⟩ | ⟨_, hr⟩ <;> cases hr⟩
  case record p ks ds length =>
    simp only [fieldNext, bind_eq_ok] at h1
    obtain ⟨d, h2, h3⟩ := h1
    have hmem : key ∈ recordKeys ks ds.length := by
      simp only [keysAgree, sameKeys, Bool.and_eq_true, List.all_eq_true, decide_eq_true_eq] at hka
      exact hka.1 key hk
    obtain ⟨j, hn, hj⟩ := fieldOfKey_inv hmem (hW.record _ _ _ _ _ h.nodes).1 h2
    obtain ⟨hl, hc⟩ := good_record.mp h.good
    have hdm : d ∈ ds := List.mem_of_getElem? hj
    obtain ⟨r1, r2, r3⟩ := Binput.range hW
      ⟨hc d hdm, (hW.record _ _ _ _ _ h.nodes).2 d hdm⟩ (hl d hdm) h3
    refine ⟨r1, r2, fun i hi => ?_⟩
    simp only [Content.len] at hi
    have hn' : Named ks (ds.map (fun c => c.valD i)).length key j := by simpa using hn
    rw [valD_record h.good hi, r3 i hi, fieldOr_mkRecord, field_mkRecord hn']
    refine ⟨?_, fun _ => hn'.mem_names⟩
    obtain ⟨hb, hj⟩ := List.getElem?_eq_some_iff.mp hj
    simp [hj]

/-- A list of outputs for each name gives a list of fields for each output. -/
theorem outColumn_ok {outs : List (List Content)} {i : Nat} {ds : List Content}
    (h : outColumn outs i = ok ds) : List.Forall₂ (fun x d => x[i]? = some d) outs ds := by
  unfold outColumn at h
  rw [mapR_forall₂] at h
  refine h.imp (fun x d h => ?_)
  simpa using (rd_eq_ok.mp h).2

theorem find_isRecord {cs : List Content} {keys : List String} (h : firstKeys cs = some keys) :
    ∃ c ∈ cs, c.isRecord = true ∧ cs.find? isRecord = some c ∧
      ∃ p ks ds length, c = record p ks ds length ∧ keys = recordKeys ks ds.length := by
  induction cs with
  | nil => cases h
  | cons c cs ih =>
    unfold firstKeys at h ih
    rw [List.findSome?_cons] at h
    by_cases hr : c.isRecord = true
    · cases c <;> simp only [isRecord, Bool.false_eq_true] at hr
      case record p ks ds length =>
        simp only [Option.some.injEq] at h
        exact ⟨_, by simp, rfl, by simp [isRecord], p, ks, ds, length, rfl, h.symm⟩
    · obtain ⟨d, h1, h2, h3, h4⟩ := ih (by
        cases c <;> first | exact h | exact absurd rfl hr)
      exact ⟨d, by simp [h1], h2, by rw [List.find?_cons, Bool.eq_false_iff.mpr hr]; exact h3, h4⟩

theorem firstKeys_isSome {cs : List Content} (h : cs.any isRecord = true) :
    (firstKeys cs).isSome = true := by
  rw [List.any_eq_true] at h
  obtain ⟨c, hc, hr⟩ := h
  unfold firstKeys
  rw [List.findSome?_isSome_iff]
  refine ⟨c, hc, ?_⟩
  cases c <;> first | rfl | cases hr

/-- The step for records. -/
theorem recordStep_ok (hW : Fam reg W) {next : List Content → R (List Content)} {n : Nat} {cs outs : List Content}
    (hb : ∀ c ∈ cs, Binput W (b + 1) c) (hl : ∀ c ∈ cs, c.len = n) (hf : ∀ c ∈ cs, c.isFlat = true)
    (hnext : ∀ cs' outs', cs'.length = cs.length → (∀ c ∈ cs', Binput W (b + 1) c) →
      next cs' = ok outs' → ∃ m, BOut P k m cs' outs')
    (hQ : RecordRule P Q cs.length k)
    (h : recordStep next cs = ok outs) : BOut Q k n cs outs := by
  unfold recordStep at h
  split at h
  · cases h
  rename_i keys hkeys
  split at h
  · cases h
  rename_i hka
  simp only [Bool.not_eq_false, List.all_eq_true] at hka
  obtain ⟨first, hfm, hfr, hff, p, ks, ds, length, hfe, hke⟩ := find_isRecord hkeys
  rw [bind_eq_ok] at h
  obtain ⟨couts, h1, h2⟩ := h
  rw [mapR_forall₂] at h1
  -- the outputs for one name
  have hkey : List.Forall₂ (fun key o => ∃ cs', BOut P k n cs' o ∧
      List.Forall₂ (fun c c' => ∀ i, i < n → c'.valD i = (c.valD i).fieldOr key ∧
        ((c.valD i).IsRecord → key ∈ (c.valD i).names)) cs cs') keys couts := by
    refine fa2_imp_mem h1 (fun key hkm o ho => ?_)
    rw [bind_eq_ok] at ho
    obtain ⟨cs', hc1, hc2⟩ := ho
    rw [mapR_forall₂] at hc1
    have hstep := fa2_imp_mem hc1 (S := fun c c' => Binput W (b + 1) c' ∧ c'.len = n ∧ ∀ i, i < n →
      c'.valD i = (c.valD i).fieldOr key ∧ ((c.valD i).IsRecord → key ∈ (c.valD i).names))
      (fun c hc c' h => by
        have := fieldNext_ok hW (hb c hc) (hf c hc) hkm (hka c hc) h
        rw [hl c hc] at this
        exact this)
    obtain ⟨m, hbo⟩ := hnext cs' o hstep.length_eq.symm (fun c hc => (forall₂_mem hstep hc).choose_spec.2.1) hc2
    have hmm : m = n := by
      obtain ⟨c', hc', h⟩ := fa2_left hstep hfm
      rw [← hbo.len c' hc']; exact h.2.1
    subst hmm
    exact ⟨cs', hbo, hstep.imp (fun _ _ h => h.2.2)⟩
  have holen : ∀ o ∈ couts, o.length = k := by
    intro o ho
    obtain ⟨key, _, cs', hbo, hs⟩ := forall₂_mem hkey ho
    rw [hbo.length]
  split at h2
  · cases h2
  rename_i _ out rest
  have hol := holen out (by simp)
  generalize out :: rest = couts at *
  rw [mapR_forall₂, hol] at h2
  have hlf : ((cs.find? isRecord).getD (empty {})).len = n := by rw [hff]; exact hl _ hfm
  rw [hlf] at h2
  -- the names are those of tuples if there are no other records
  have htup : cs.all tupleOrOther = true → ks = none := by
    intro ht
    rw [List.all_eq_true] at ht
    have := ht first hfm
    subst hfe
    cases ks with
    | none => rfl
    | some ks => simp [tupleOrOther] at this
  have hklen := hkey.length_eq
  -- one output
  have hout : List.Forall₂ (fun (q : Nat) o => ∃ es : List Content,
      o = record {} (if cs.all tupleOrOther then none else some keys) es n ∧
      es.length = keys.length ∧ (∀ d ∈ es, d.Good ∧ d.len = n) ∧
      ∀ (j : Nat) (x : List Content), couts[j]? = some x → ∃ d, x[q]? = some d ∧ es[j]? = some d) (List.range k) outs := by
    refine h2.imp (fun q o ho => ?_)
    rw [bind_eq_ok] at ho
    obtain ⟨es, he, ho⟩ := ho
    simp only [ok.injEq] at ho
    have he := outColumn_ok he
    refine ⟨es, ho.symm, by rw [← he.length_eq, hklen], fun d hd => ?_, fun j x hx => ?_⟩
    · obtain ⟨x, hx, hxd⟩ := forall₂_mem he hd
      obtain ⟨key, _, cs', hbo, _⟩ := forall₂_mem hkey hx
      exact hbo.good d (List.mem_of_getElem? hxd)
    · obtain ⟨hj, rfl⟩ := List.getElem?_eq_some_iff.mp hx
      have hj' : j < es.length := by rw [← he.length_eq]; exact hj
      have := (List.forall₂_iff_get.mp he).2 j hj hj'
      exact ⟨es[j], this, List.getElem?_eq_getElem hj'⟩
  have hgood : ∀ es : List Content, (∀ d ∈ es, d.Good ∧ d.len = n) → ∀ K : Option (List String),
      (record {} K es n).Good := fun es he K =>
    good_record.mpr ⟨fun d hd => by rw [(he d hd).2], fun d hd => (he d hd).1⟩
  have houtlen : outs.length = k := by rw [← hout.length_eq]; simp
  have hnames : ∀ es : List Content, es.length = keys.length → ∀ i,
      (mkRecord (if cs.all tupleOrOther then none else some keys) (es.map (fun c => c.valD i))).names
        = keys := by
    intro es hes i
    rw [names_mkRecord]
    by_cases ht : cs.all tupleOrOther = true
    · rw [if_pos ht]
      have := htup ht
      subst this
      have hkl := congrArg List.length hke
      simp only [recordKeys, List.length_map, List.length_range] at hkl
      simp only [List.length_map]
      rw [hes, hkl, ← hke]
    · rw [if_neg ht]
      simp [← hes]
  refine ⟨houtlen, hl, fun o ho => ?_, fun i hi => ?_⟩
  · obtain ⟨q, _, es, rfl, _, he, _⟩ := forall₂_mem hout ho
    exact ⟨hgood es he _, rfl⟩
  · have hrec : ∀ c ∈ cs, c.isRecord = true → (c.valD i).IsRecord := by
      intro c hc hr
      cases c <;> simp only [isRecord, Bool.false_eq_true] at hr
      case record p' ks' ds' length' =>
        have : i < length' := by have := hl _ hc; simp only [Content.len] at this; omega
        rw [valD_record (hb _ hc).good this]
        exact isRecord_mkRecord _ _
    refine hQ _ _ keys (by simp) ?_ ?_ ?_ ?_ (by simp [houtlen]) ?_ ?_ ?_
    · intro hm
      obtain ⟨c, hc, he⟩ := List.mem_map.mp hm
      exact (flat_elem (hb c hc).good (hf c hc) (by rw [hl c hc]; exact hi)).2.2 he
    · intro xs hm
      obtain ⟨c, hc, he⟩ := List.mem_map.mp hm
      exact (flat_elem (hb c hc).good (hf c hc) (by rw [hl c hc]; exact hi)).2.1 xs he
    · exact ⟨_, List.mem_map.mpr ⟨first, hfm, rfl⟩, hrec first hfm hfr⟩
    · intro v hv hr key
      obtain ⟨c, hc, rfl⟩ := List.mem_map.mp hv
      constructor
      · intro hk
        have hfc := hf c hc
        have hci : i < c.len := by rw [hl c hc]; exact hi
        have hkac := hka c hc
        cases c <;> simp only [isFlat, Bool.false_eq_true] at hfc
        case numpy p' dt data =>
          simp only [Content.len] at hci
          rw [valD_numpy hci] at hr
          rcases hr with ⟨_, hr⟩ | ⟨_, hr⟩ <;> cases hr
        case record p' ks' ds' length' =>
          simp only [Content.len] at hci
          rw [valD_record (hb _ hc).good hci] at hk
          have := names_sub hk
          simp only [keysAgree, sameKeys, Bool.and_eq_true, List.all_eq_true, decide_eq_true_eq] at hkac
          exact hkac.2 key (by simpa using this)
      · intro hk
        obtain ⟨o, _, cs', _, hs⟩ := fa2_left hkey hk
        obtain ⟨c', _, h⟩ := fa2_left hs hc
        exact (h i hi).2 hr
    · intro o ho
      obtain ⟨o', ho', rfl⟩ := List.mem_map.mp ho
      obtain ⟨q, _, es, rfl, hes, he, _⟩ := forall₂_mem hout ho'
      rw [valD_record (hgood es he _) hi]
      exact ⟨isRecord_mkRecord _ _, hnames es hes i⟩
    · intro o ho
      obtain ⟨o', ho', rfl⟩ := List.mem_map.mp ho
      obtain ⟨q, _, es, rfl, hes, he, _⟩ := forall₂_mem hout ho'
      rw [valD_record (hgood es he _) hi]
      by_cases ht : cs.all tupleOrOther = true
      · rw [if_pos ht]
        simp only [mkRecord, Val.tuple.injEq, exists_eq', true_iff]
        intro v hv hr
        obtain ⟨c, hc, rfl⟩ := List.mem_map.mp hv
        rw [List.all_eq_true] at ht
        have htc := ht c hc
        have hfc := hf c hc
        have hci : i < c.len := by rw [hl c hc]; exact hi
        cases c <;> simp only [isFlat, Bool.false_eq_true] at hfc
        case numpy p' dt data =>
          simp only [Content.len] at hci
          rw [valD_numpy hci] at hr
          rcases hr with ⟨_, hr⟩ | ⟨_, hr⟩ <;> cases hr
        case record p' ks' ds' length' =>
          simp only [Content.len] at hci
          rw [valD_record (hb _ hc).good hci]
          cases ks' with
          | none => exact ⟨_, rfl⟩
          | some _ => simp [tupleOrOther] at htc
      · rw [if_neg ht]
        simp only [mkRecord, reduceCtorEq, exists_false, false_iff]
        intro hall
        apply ht
        rw [List.all_eq_true]
        intro c hc
        have hci : i < c.len := by rw [hl c hc]; exact hi
        cases c <;> try rfl
        case record p' ks' ds' length' =>
          cases ks' with
          | none => rfl
          | some ks' =>
            have hr := hrec _ hc rfl
            obtain ⟨ws, hw⟩ := hall _ (List.mem_map.mpr ⟨_, hc, rfl⟩) hr
            simp only [Content.len] at hci
            rw [valD_record (hb _ hc).good hci] at hw
            cases hw
    · intro key hk
      obtain ⟨j, hj, hj1, hj2, _⟩ := first_index hk
      have hjc : j < couts.length := by omega
      obtain ⟨cs', hbo, hs⟩ := (List.forall₂_iff_get.mp hkey).2 j hj hjc
      simp only [List.get_eq_getElem] at hbo hs
      have hkj : keys[j] = key := by
        rw [List.getElem?_eq_getElem hj] at hj1; simpa using hj1
      rw [hkj] at hs
      have e1 : (cs.map (fun c => c.valD i)).map (Val.fieldOr key) = cs'.map (fun c => c.valD i) := by
        rw [List.map_map]
        refine List.ext_getElem (by simp [hs.length_eq]) (fun q h1 h2 => ?_)
        simp only [List.length_map] at h1 h2
        have := ((List.forall₂_iff_get.mp hs).2 q h1 h2 i hi).1
        simpa using this.symm
      have e2 : (outs.map (fun o => o.valD i)).map (Val.fieldOr key)
          = (couts[j]).map (fun o => o.valD i) := by
        rw [List.map_map]
        have hcl := holen couts[j] (List.getElem_mem hjc)
        refine List.ext_getElem (by simp [houtlen, hcl]) (fun q h1 h2 => ?_)
        simp only [List.length_map] at h1 h2
        obtain ⟨es, ho, hes, he, hd⟩ := (List.forall₂_iff_get.mp hout).2 q (by simp; omega) h1
        simp only [List.get_eq_getElem, List.getElem_range] at ho hd
        obtain ⟨d, hd1, hd2⟩ := hd j _ (List.getElem?_eq_getElem hjc)
        have hjs : j < es.length := by omega
        have hnm : Named (if cs.all tupleOrOther then none else some keys)
            (es.map (fun c => c.valD i)).length key j := by
          refine ⟨by simpa using hjs, ?_⟩
          by_cases ht : cs.all tupleOrOther = true
          · rw [if_pos ht]
            have := htup ht
            subst this; subst hfe
            have hkl := congrArg List.length hke
            simp only [recordKeys, List.length_map, List.length_range] at hkl
            have := (hW.record _ _ _ _ _ (hb _ hfm).nodes).1 rfl
            refine ⟨?_, by omega⟩
            rw [← hkj]; simp [hke, recordKeys]
          · rw [if_neg ht]
            exact ⟨hj1, hj2⟩
        simp only [List.getElem_map, Function.comp_apply]
        rw [ho, valD_record (hgood es he _) hi, fieldOr_mkRecord, field_mkRecord hnm]
        rw [List.getElem?_eq_getElem h2] at hd1
        rw [List.getElem?_eq_getElem hjs] at hd2
        simp only [Option.some.injEq] at hd1 hd2
        simp [hd1, hd2]
      rw [e1, e2]
      exact hbo.rows i hi

end Content
end Awk
