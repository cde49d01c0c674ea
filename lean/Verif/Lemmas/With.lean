import Verif.Model.With
import Verif.Lemmas.BcastMask
import Verif.Lemmas.Simplify
import Verif.Spec.With
/-
`where`, `with_field` and `cartesian`.
-/

namespace Awk
open R Spec

namespace Content

/-- The only row of a packed result. -/
theorem bcastItem_pack {o : Content} {n : Nat} (hg : o.Good) (hol : o.len = n) :
    ∃ d, bcastItem (regular {} o n n) = ok (.array d) ∧ d.toList = ok ((List.range n).map o.valD) := by
  obtain ⟨d, d1, d2, _, d4, _⟩ := range_good hg (a := 0) (b := n) (by omega) (by omega)
  have hdl : d.len = n := by simpa using d4.1
  refine ⟨d, ?_, ?_⟩
  · unfold bcastItem
    by_cases hm0 : n = 0
    · subst hm0
      have : (regular {} o 0 0).len = 0 := rfl
      rw [if_pos this]
      simp only
      rw [show (o.range 0 0) = ok d from d1]
      rfl
    · have hl : (regular {} o n n).len = 1 := by
        simp only [Content.len]
        rw [if_pos hm0, hol, Nat.div_self (by omega)]
      rw [if_neg (by omega)]
      unfold getitemAt
      simp only [Int.lt_irrefl, if_false]
      rw [if_neg (by omega)]
      simp only [getitemAtNowrap, show (0 : Int).toNat = 0 from rfl, Nat.cast_zero, Int.zero_mul,
        Int.zero_add, Int.one_mul]
      rw [show (o.range 0 n) = ok d from d1]
      rfl
  · rw [d2.toList, hdl]
    congr 1
    refine List.map_congr_left (fun i hi => ?_)
    have hi := List.mem_range.mp hi
    simpa using d4.valD (show i < n - 0 by omega)

/-- An operation on arrays of the same length that stops at the outermost level. -/
theorem bcastAndApply_flat {a : BcastArgs} (hj : a.jagged = false)
    {get : Nat → List Content → R (Option (List Content))} {cs : List Content} {fuel n : Nat}
    (hne : cs ≠ []) (hf : 2 ≤ fuel) (hn : n < 2 ^ 63 - 1) (hg : ∀ c ∈ cs, c.Good)
    (hl : ∀ c ∈ cs, c.len = n) (hr : a.right = true → ∀ c ∈ cs, Bin c)
    (hstay : get 0 (cs.map pack) = ok none) {Q : Content → Prop}
    (hget : ∀ cs', List.Forall₂ (fun c c' => c.range 0 (n : Int) = ok c' ∧ SameVals n c c') cs cs' →
      ∃ o, get 1 cs' = ok (some [o]) ∧ o.Good ∧ o.len = n ∧ Q o) :
    ∃ out o, (bcastAndApply a get fuel cs >>= onlyOutput) = ok (.array out) ∧
      out.toList = ok ((List.range n).map o.valD) ∧ Q o := by
  obtain ⟨f, rfl⟩ : ∃ f, fuel = f + 2 := ⟨fuel - 2, by omega⟩
  have hid : ∀ ds : List Content, mapR (regularToJagged a.jagged) ds = ok ds := by
    intro ds
    rw [hj, mapR_forall₂]
    refine List.forall₂_same.mpr (fun d _ => ?_)
    cases d <;> rfl
  obtain ⟨cs', hcs'⟩ : ∃ cs', List.Forall₂ (fun c c' => c.range 0 (n : Int) = ok c' ∧ SameVals n c c') cs cs' := by
    clear hr hstay hget hne
    induction cs with
    | nil => exact ⟨[], .nil⟩
    | cons c cs ih =>
      obtain ⟨cs', h⟩ := ih (fun c hc => hg c (by simp [hc])) (fun c hc => hl c (by simp [hc]))
      have hcl := hl c (by simp)
      obtain ⟨c', c1, c2, _, c4, _⟩ := range_good (hg c (by simp)) (a := 0) (b := n) (by omega) (by omega)
      refine ⟨c' :: cs', .cons ⟨c1, c2, by simpa using c4.1, fun i hi => ?_⟩ h⟩
      simpa using c4.valD (show i < n - 0 by omega)
  obtain ⟨o, ho, hog, hol, hq⟩ := hget cs' hcs'
  have hlens' : ∀ c ∈ cs', c.len = n := by
    intro c hc
    obtain ⟨_, _, h⟩ := forall₂_mem hcs' hc
    exact h.2.2.1
  have hne' : cs' ≠ [] := by
    rintro rfl
    exact hne (List.length_eq_zero_iff.mp hcs'.length_eq)
  have h2 : bcastWith a get (f + 1) 1 cs' = ok [o] := by
    rw [bcastWith, hid, bind_ok]
    have hrb : (if a.right then rightBroadcast cs' else cs') = cs' := by
      split
      · rename_i har
        refine rightBroadcast_eq BcastNode.fam (b := 0) (fun c hc => ?_)
        obtain ⟨c0, hc0, h⟩ := forall₂_mem hcs' hc
        have hb := hr har c0 hc0
        obtain ⟨r1, _, _⟩ := hb.range BcastNode.fam (show n ≤ c0.len by rw [hl c0 hc0]) h.1
        exact r1
      · rfl
    simp only [hrb]
    have : (cs'.any (fun c => c.len != ((cs'.map len).headD 0))) = false := by
      rw [List.any_eq_false]
      obtain ⟨c1, cs1, rfl⟩ := List.exists_cons_of_ne_nil hne'
      intro c hc
      simp [hlens' c hc, hlens' c1 (by simp)]
    simp only [this, Bool.false_eq_true, if_false, ho, bind_ok]
  have hpc : mapR (bcastRegular n) (cs.map pack) = ok cs' := by
    rw [mapR_forall₂, List.forall₂_map_left_iff]
    refine fa2_imp_mem hcs' (fun c hc c' h => ?_)
    have hp := pack_len c
    unfold pack at hp ⊢
    have hcl := hl c hc
    simp only [bcastRegular, hp, Nat.one_mul]
    rw [if_neg (by omega), if_pos hcl, hcl, getitemRange_exact (by omega) hn]
    exact h.1
  have hsw : bcastSwitch a (bcastWith a get (f + 1)) 0 (cs.map pack)
      = regularStep (bcastWith a get (f + 1) 1) (cs.map pack) := by
    obtain ⟨c1, cs1, rfl⟩ := List.exists_cons_of_ne_nil hne
    unfold bcastSwitch
    rw [if_neg, if_neg, if_neg, if_neg, if_pos, if_pos]
    · simp [pack, isJagged]
    · simp [pack, isListNode]
    · simp [pack, isOption]
    · simp [pack, isUnion]
    · simp [pack]
    · simp [pack]
  have h1 : bcastWith a get (f + 2) 0 (cs.map pack) = ok [regular {} o n n] := by
    rw [bcastWith, hid, bind_ok]
    have hrb : (if a.right then rightBroadcast (cs.map pack) else cs.map pack) = cs.map pack := by
      split
      · rename_i har
        exact rightBroadcast_pack (hr har)
      · rfl
    have hlens : ((cs.map pack).any (fun c => c.len != (((cs.map pack).map len).headD 0))) = false := by
      obtain ⟨c1, cs1, rfl⟩ := List.exists_cons_of_ne_nil hne
      simp [pack_len]
    simp only [hrb, hlens, Bool.false_eq_true, if_false, hstay, bind_ok, hsw]
    unfold regularStep
    rw [show (((cs.map pack).map regularSize).foldl max 0) = n by
      rw [List.map_map]
      refine foldl_max_const (fun x hx => ?_) (by simpa using hne)
      obtain ⟨c, hc, rfl⟩ := List.mem_map.mp hx
      exact hl c hc]
    simp only [hpc, bind_ok, h2, List.map_cons, List.map_nil]
    rw [show ((cs'.map len).foldl max 0) = n by
      refine foldl_max_const (fun x hx => ?_) (by simpa using hne')
      obtain ⟨c, hc, rfl⟩ := List.mem_map.mp hx
      exact hlens' c hc]
  obtain ⟨d, d1, d2⟩ := bcastItem_pack hog hol
  refine ⟨d, o, ?_, d2, hq⟩
  unfold bcastAndApply
  rw [show (fun c : Content => regular {} c c.len 1) = pack from rfl, h1]
  simp only [bind_ok, mapR, d1, onlyOutput]

/-! ### `where` -/

theorem nonzero_truth {a : Atom} (h : Plainly a) : a.nonzero = truth a := by
  cases a <;> first
    | (simp [Plainly] at h; done)
    | rfl
    | (simp only [Atom.nonzero, truth]; rw [Bool.eq_iff_iff]; simp; done)

/-- `where` with a flat condition. -/
theorem where_flat {same : Content → Content → Bool} (hsame : ∀ a b, same a b = true → a = b)
    {no : Without} (hu : no.union) (hno : no.indexed ∨ no.option) {mb : Bool} {fuel n : Nat} (hf : 2 ≤ fuel)
    {p : Params} {dt : DType} {data : List Atom} {left right : Content} (hd : data.length = n)
    (ht : ∀ a ∈ data, Plainly a) (hl : Input no left ∧ Bin left ∧ left.len = n)
    (hr : Input no right ∧ Bin right ∧ right.len = n) (hn : n < 2 ^ 63 - 1) :
    ∃ out ws, whereArray same mb fuel (numpy p dt data) left right = ok (.array out) ∧ out.toList = ok ws ∧
      ws.map Val.canon = (List.range n).map (fun i =>
        (if truth (data[i]?.getD (.int 0)) then left.valD i else right.valD i).canon) := by
  unfold whereArray
  have hnb : Bin (numpy p dt data) := ⟨good_numpy _ _ _, .mk trivial (by simp [children])⟩
  obtain ⟨out, o, h1, h2, h3⟩ := bcastAndApply_flat (a := ⟨true, false, true⟩) rfl (get := whereGet same mb)
    (cs := [numpy p dt data, left, right]) (n := n)
    (Q := fun o => o.len = n ∧ o.cv = (List.range n).map (fun i =>
        (if truth (data[i]?.getD (.int 0)) then left.valD i else right.valD i).canon))
    (by simp) hf hn (by simpa using ⟨good_numpy _ _ _, hl.1.good, hr.1.good⟩)
    (by simpa [len] using ⟨hd, hl.2.2, hr.2.2⟩) (fun _ => by simpa using ⟨hnb, hl.2.1, hr.2.1⟩) rfl (by
      intro cs' hcs'
      match cs', hcs' with
      | [c', l', r'], .cons hc (.cons hl' (.cons hr' .nil)) =>
        have hc' : c' = numpy p dt data := by
          have := hc.1
          simp only [range, numpyRange] at this
          unfold getitem_range_nowrap at this
          simpa [← hd] using this.symm
        subst hc'
        obtain ⟨l2, a1, a2, _, _⟩ := range_input hl.1 (b := n) (by omega)
        rw [hl'.1] at a1
        simp only [ok.injEq] at a1; subst a1
        obtain ⟨r2, b1, b2, _, _⟩ := range_input hr.1 (b := n) (by omega)
        rw [hr'.1] at b1
        simp only [ok.injEq] at b1; subst b1
        have hg : (union {} (data.map (fun a => if a.nonzero then (0 : Int) else 1))
            ((List.range data.length).map (fun (i : Nat) => (i : Int))) [l', r']).Good := by
          refine good_union.mpr ⟨by simp, by simpa using ⟨a2.good, b2.good⟩, fun i hi => ?_⟩
          simp only [List.length_map] at hi
          simp only [List.getElem_map, List.getElem_range]
          split
          · exact ⟨by omega, by simp, by omega, by simpa [hl'.2.2.1] using (by omega)⟩
          · exact ⟨by omega, by simp, by omega, by simpa [hr'.2.2.1] using (by omega)⟩
        have key := simplifyUnion_ok (domerge := true) (mb := mb) hsame (fun _ => hno) hg (no := no) (by
          have hal : ∀ {d : Content}, Input no d → d.alts = [d] := by
            intro d hd
            cases d <;> first | rfl | exact absurd hu hd.nodes.here
          intro c hc d hd
          simp only [List.mem_cons, List.not_mem_nil, or_false] at hc
          rcases hc with rfl | rfl
          · rw [hal a2] at hd; simp only [List.mem_singleton] at hd; subst hd; exact a2
          · rw [hal b2] at hd; simp only [List.mem_singleton] at hd; subst hd; exact b2)
        obtain ⟨o, ho⟩ := key.2 ⟨hu, by
          have hal : ∀ {d : Content}, Input no d → d.alts = [d] := by
            intro d hd
            cases d <;> first | rfl | exact absurd hu hd.nodes.here
          simp [hal a2, hal b2]⟩
        have hs := key.1
        rw [ho] at hs
        simp only [sat_ok] at hs
        have hol : o.len = n := by
          have := congrArg List.length hs.2
          simpa [len, hd] using this
        refine ⟨o, by simp only [whereGet, ho, bind_ok], hs.1, hol, hol, ?_⟩
        rw [hs.2]
        unfold cv
        rw [show (union {} (data.map (fun a => if a.nonzero then (0 : Int) else 1))
            ((List.range data.length).map (fun (i : Nat) => (i : Int))) [l', r']).len = n by simp [len, hd]]
        refine List.map_congr_left (fun i hi => ?_)
        have hi := List.mem_range.mp hi
        have hid : i < data.length := by omega
        by_cases hz : truth data[i]
        · have hz' : data[i].nonzero = true := by rw [nonzero_truth (ht _ (List.getElem_mem hid))]; exact hz
          rw [valD_union hg (by simpa using hid) (by simpa using hid) (by simp [hz'])]
          simp [hz', List.getElem?_eq_getElem hid, hz, hl'.2.2.2 i hi]
        · have hz' : data[i].nonzero = false := by
            rw [nonzero_truth (ht _ (List.getElem_mem hid))]; simpa using hz
          rw [valD_union hg (by simpa using hid) (by simpa using hid) (by simp [hz'])]
          simp [hz', List.getElem?_eq_getElem hid, hz, hr'.2.2.2 i hi])
  refine ⟨out, _, h1, h2, ?_⟩
  rw [← h3.2]
  simp [cv, h3.1]

/-! ### `with_field` -/

theorem recordKeys_nodup {keys : Option (List String)} {n : Nat} (hk : ∀ ks, keys = some ks → ks.Nodup) :
    (recordKeys keys n).Nodup := by
  cases keys with
  | some ks => exact hk ks rfl
  | none =>
    refine List.nodup_iff_injective_getElem.mpr (fun i j h => ?_)
    simp only [recordKeys, List.getElem_map, List.getElem_range] at h
    exact Fin.ext (toString_inj h)

/-- The name of a field of a record array. -/
theorem named_of_recordKeys {keys : Option (List String)} {n : Nat} (hn : keys = none → n < 2 ^ 31)
    (hk : ∀ ks, keys = some ks → ks.length = n ∧ ks.Nodup) {i : Nat} (h : i < (recordKeys keys n).length) :
    Named keys n (recordKeys keys n)[i] i := by
  cases keys with
  | none =>
    have := hn rfl
    simp only [recordKeys, List.length_map, List.length_range] at h
    exact ⟨h, by simp [recordKeys], by omega⟩
  | some ks =>
    obtain ⟨hk1, hk2⟩ := hk ks rfl
    simp only [recordKeys] at h ⊢
    refine ⟨by omega, List.getElem?_eq_getElem h, fun j hj he => ?_⟩
    rw [List.getElem?_eq_getElem (show j < ks.length by omega)] at he
    simp only [Option.some.injEq] at he
    have := (List.Nodup.getElem_inj_iff hk2).mp he
    omega

theorem recordKeys_length {keys : Option (List String)} {n : Nat}
    (hk : ∀ ks, keys = some ks → ks.length = n ∧ ks.Nodup) : (recordKeys keys n).length = n := by
  cases keys with
  | none => simp [recordKeys]
  | some ks => exact (hk ks rfl).1

/-- The fields of a record by their names. -/
theorem recordKeys_fields {keys : Option (List String)} {vs : List Val} (hn : keys = none → vs.length < 2 ^ 31)
    (hk : ∀ ks, keys = some ks → ks.length = vs.length ∧ ks.Nodup) :
    (recordKeys keys vs.length).map (fun k => Val.field k (mkRecord keys vs)) = vs := by
  have hl := recordKeys_length hk
  apply List.ext_getElem
  · simp [hl]
  · intro i h1 h2
    rw [List.getElem_map]
    exact field_mkRecord (named_of_recordKeys hn hk (by omega))

theorem named_mkRecord {keys : Option (List String)} {vs : List Val} (hn : keys = none → vs.length < 2 ^ 31)
    (hk : ∀ ks, keys = some ks → ks.length = vs.length ∧ ks.Nodup) :
    (mkRecord keys vs).named
      = (recordKeys keys vs.length).map (fun k => (k, Val.field k (mkRecord keys vs))) := by
  have hl := recordKeys_length hk
  apply List.ext_getElem
  · cases keys with
    | none => simp [mkRecord, Val.named, recordKeys]
    | some ks => simp [mkRecord, Val.named, recordKeys, (hk ks rfl).1]
  · intro i h1 h2
    simp only [List.length_map] at h2
    rw [List.getElem_map, field_mkRecord (named_of_recordKeys hn hk h2)]
    cases keys with
    | none => simp [mkRecord, Val.named, recordKeys]
    | some ks => simp [mkRecord, Val.named, recordKeys]

/-- The row of a record array with a new field. -/
theorem withField_row {keys : Option (List String)} {vs : List Val} {x : Val} {where_ : Option String}
    (hn : keys = none → vs.length < 2 ^ 31) (hk : ∀ ks, keys = some ks → ks.length = vs.length ∧ ks.Nodup) :
    let kept := withKept where_ (recordKeys keys vs.length)
    mkRecord (withLookup keys.isNone kept where_)
        (kept.map (fun k => Val.field k (mkRecord keys vs)) ++ [x])
      = Val.withField where_ (mkRecord keys vs) x := by
  have hzip : ∀ (l : List String) (f : String → Val), l.zip (l.map f) = l.map (fun k => (k, f k)) := by
    intro l f
    induction l with
    | nil => rfl
    | cons a l ih => simp [ih]
  cases where_ with
  | some w =>
    have hnm := named_mkRecord hn hk
    generalize mkRecord keys vs = v at hnm ⊢
    simp only [withLookup, mkRecord, Val.withField, withKept]
    rw [List.zip_append (by simp), hzip, hnm,
      (recordKeys_nodup (fun ks h => (hk ks h).2)).erase_eq_filter, List.filter_map]
    have : (fun x : String => x != w) = (fun f : String × Val => decide (f.1 ≠ w)) ∘ (fun k => (k, Val.field k v)) := by
      funext k
      by_cases hkw : k = w <;> simp [hkw]
    rw [this]
    rfl
  | none =>
    cases keys with
    | none =>
      simp only [withLookup, Option.isNone_none, if_true, withKept]
      rw [recordKeys_fields hn hk]
      simp [mkRecord, Val.withField]
    | some ks =>
      simp only [withLookup, Option.isNone_some, Bool.false_eq_true, if_false, withKept]
      simp only [mkRecord, Val.withField]
      rw [List.zip_append (by simp), hzip, ← mkRecord, named_mkRecord hn hk]
      simp

/-- `with_field` of an array of records. -/
theorem withField_flat {fuel n : Nat} (hf : 2 ≤ fuel) {p : Params} {keys : Option (List String)}
    {ds : List Content} {what : Content} {where_ : Option String} (hg : (record p keys ds n).Good)
    (hw : what.Good ∧ what.len = n) (hnn : n < 2 ^ 63 - 1) (hn : keys = none → ds.length < 2 ^ 31)
    (hk : ∀ ks, keys = some ks → ks.length = ds.length ∧ ks.Nodup)
    (hne : withKept where_ (recordKeys keys ds.length) ≠ []) :
    ∃ out, withField fuel (record p keys ds n) what where_ = ok (.array out) ∧
      out.toList = ok ((List.range n).map (fun i =>
        Val.withField where_ ((record p keys ds n).valD i) (what.valD i))) := by
  have hkeys : (record p keys ds n).fieldKeys = some (recordKeys keys ds.length) := rfl
  unfold withField
  rw [hkeys]
  simp only
  generalize hkept : withKept where_ (recordKeys keys ds.length) = kept at hne ⊢
  have hsub : ∀ k ∈ kept, k ∈ recordKeys keys ds.length := by
    intro k hk
    subst hkept
    cases where_ with
    | none => exact hk
    | some w => exact List.mem_of_mem_erase hk
  rw [if_neg (by simpa using hne)]
  obtain ⟨out, o, h1, h2, h3⟩ := bcastAndApply_flat (a := ⟨false, false, true⟩) rfl
    (get := withFieldGet kept where_) (cs := [record p keys ds n, what]) (n := n)
    (Q := fun o => ∀ i, i < n → o.valD i = Val.withField where_ ((record p keys ds n).valD i) (what.valD i))
    (by simp) hf hnn (by simpa using ⟨hg, hw.1⟩) (by simpa [len] using hw.2) (fun h => by cases h) rfl (by
      intro cs' hcs'
      match cs', hcs' with
      | [r', w'], .cons hr (.cons hw' .nil) =>
        obtain ⟨hr1, hr2, hr3, hr4⟩ := hr
        obtain ⟨es, rfl, hel⟩ : ∃ es, r' = record p keys es n ∧ es.length = ds.length := by
          refine ⟨ds, ?_, rfl⟩
          simp only [range] at hr1
          split at hr1
          · simpa using (R.ok.inj hr1).symm
          · rw [if_pos (by simp)] at hr1
            exact (R.ok.inj hr1).symm
        obtain ⟨fs, f1, f2⟩ := mapR_exists (f := fun key => fieldNext key (record p keys es n)) (cs := kept)
          (P := fun key e => e.Good ∧ e.len = n ∧ ∀ i, i < n → e.valD i
            = Val.field key ((record p keys es n).valD i)) (by
          intro key hkey
          obtain ⟨j, hj, rfl⟩ := List.mem_iff_getElem.mp (hsub key hkey)
          have hnm := named_of_recordKeys hn hk hj
          obtain ⟨hb, _⟩ := id hnm
          obtain ⟨hl, hc⟩ := good_record.mp hr2
          have hjs : j < es.length := by omega
          obtain ⟨e, e1, e2, _, e4, _⟩ := range_good (hc es[j] (List.getElem_mem _)) (a := 0) (b := n) (by omega)
            (hl es[j] (List.getElem_mem _))
          refine ⟨e, ?_, e2, by simpa using e4.1, fun i hi => ?_⟩
          · simp only [fieldNext, fieldOfKey, hel, fieldIndex_ok hnm, bind_ok]
            rw [rd_nat_ok hjs, bind_ok]
            exact e1
          · have hnm' : Named keys (es.map (fun c => c.valD i)).length (recordKeys keys ds.length)[j] j := by
              simpa [hel] using hnm
            rw [valD_record hr2 hi, field_mkRecord hnm']
            simpa using e4.valD (show i < n - 0 by omega))
        have hall : ∀ c ∈ fs ++ [w'], c.Good ∧ c.len = n := by
          intro c hc
          rcases List.mem_append.mp hc with hc | hc
          · obtain ⟨_, _, h⟩ := forall₂_mem f2 hc
            exact ⟨h.1, h.2.1⟩
          · simp only [List.mem_singleton] at hc; subst hc
            exact ⟨hw'.2.1, hw'.2.2.1⟩
        have hml : minLength (fs ++ [w']) = n := minLength_same (by simp) (fun c hc => (hall c hc).2)
        have hgo : (record p (withLookup keys.isNone kept where_) (fs ++ [w']) n).Good :=
          good_record.mpr ⟨fun c hc => by rw [(hall c hc).2], fun c hc => (hall c hc).1⟩
        refine ⟨record p (withLookup keys.isNone kept where_) (fs ++ [w']) n, ?_, hgo, rfl, fun i hi => ?_⟩
        · simp only [withFieldGet, f1, bind_ok, hml]
        · rw [valD_record hgo hi]
          have hrow : (record p keys ds n).valD i = mkRecord keys (ds.map (fun c => c.valD i)) :=
            valD_record hg hi
          have hfs : (fs ++ [w']).map (fun c => c.valD i)
              = kept.map (fun k => Val.field k (mkRecord keys (ds.map (fun c => c.valD i)))) ++ [what.valD i] := by
            rw [List.map_append, ← hrow, ← hr4 i hi]
            congr 1
            · clear f1 hall hml hgo hkept hne hsub
              induction f2 with
              | nil => rfl
              | cons h _ ih => simp only [List.map_cons, ih, h.2.2 i hi]
            · simp [hw'.2.2.2 i hi]
          rw [hfs, hrow]
          have := withField_row (x := what.valD i) (where_ := where_) (keys := keys)
            (vs := ds.map (fun c => c.valD i)) (by simpa using hn) (by simpa using hk)
          simp only [List.length_map] at this
          rw [hkept] at this
          exact this)
  refine ⟨out, h1, h2.trans ?_⟩
  congr 1
  exact List.map_congr_left (fun i hi => h3 i (List.mem_range.mp hi))

end Content
end Awk
