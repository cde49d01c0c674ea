import Verif.Lemmas.Json
import Verif.Lemmas.BuilderRun
/-
What `ak.from_json` makes of JSON values: the commands are those for the same Python objects.
-/

namespace Awk
open R

/-- A `Record` is a row of a record array. -/
theorem Content.item_record {c d : Content} {i k : Nat} (h : c.getitemAtNowrap i = ok (.record d k)) :
    ∃ p keys cs n, d = .record p keys cs n := by
  induction c using Awk.Content.induct generalizing i with
  | empty p => cases h
  | numpy p dt data =>
    simp only [getitemAtNowrap, bind_eq_ok] at h
    obtain ⟨_, _, h⟩ := h; cases h
  | regular p c size zeros ih =>
    simp only [getitemAtNowrap, bind_eq_ok] at h
    obtain ⟨_, _, h⟩ := h; cases h
  | listArray p starts stops c ih =>
    simp only [getitemAtNowrap, bind_eq_ok] at h
    obtain ⟨_, _, _, _, _, _, _, _, h⟩ := h; cases h
  | listOffset p offsets c ih =>
    simp only [getitemAtNowrap, bind_eq_ok] at h
    obtain ⟨_, _, _, _, _, _, _, _, h⟩ := h; cases h
  | indexed p index c ih =>
    simp only [getitemAtNowrap, bind_eq_ok] at h
    obtain ⟨_, _, o, _, h⟩ := h
    cases o with
    | none => cases h
    | some k => exact ih h
  | indexedOption p index c ih =>
    simp only [getitemAtNowrap, bind_eq_ok] at h
    obtain ⟨_, _, o, _, h⟩ := h
    cases o with
    | none => cases h
    | some k => exact ih h
  | byteMasked p mask vw c ih =>
    simp only [getitemAtNowrap, bind_eq_ok] at h
    obtain ⟨_, _, h⟩ := h
    split at h
    · exact ih h
    · cases h
  | bitMasked p mask vw length lsb c ih =>
    simp only [getitemAtNowrap, bind_eq_ok] at h
    obtain ⟨_, _, h⟩ := h
    split at h
    · exact ih h
    · cases h
  | unmasked p c ih => exact ih h
  | record p keys cs length ih => cases h; exact ⟨_, _, _, _, rfl⟩
  | union p tags index cs ih =>
    simp only [getitemAtNowrap, bind_eq_ok] at h
    obtain ⟨_, _, _, _, ⟨t, j⟩, _, h⟩ := h
    simp only at h
    have : ∀ (ds : List Content) (t : Nat) (j : Int), (∀ d ∈ ds, d ∈ cs) →
        getitemAtNth ds t j = ok (.record d k) → ∃ p keys cs n, d = .record p keys cs n := by
      intro ds
      induction ds with
      | nil => intro t j _ h; cases h
      | cons x xs ihx =>
        intro t j hm h
        cases t with
        | zero =>
          simp only [getitemAtNth] at h
          split at h
          · cases h
          · exact ih x (hm x (by simp)) h
        | succ t => exact ihx t j (fun d hd => hm d (by simp [hd])) h
    exact this cs t j (fun d hd => hd) h

namespace Spec.Json

mutual
/-- The Python object with the same commands. -/
def py : Json → PyVal
  | null => .none
  | bool x => .bool x
  | int x => .int x
  | real x => .float x
  | str codes => .str codes
  | arr items => .list (pyAll items)
  | obj fields => .dict (pyFields fields)
/-- The items of an array. -/
def pyAll : List Json → List PyVal
  | [] => []
  | x :: xs => x.py :: pyAll xs
/-- The fields of an object. -/
def pyFields : List (String × Json) → List (String × PyVal)
  | [] => []
  | (k, x) :: xs => (k, x.py) :: pyFields xs
end

theorem pyFields_keys (fs : List (String × Json)) :
    (pyFields fs).map Prod.fst = fs.map Prod.fst := by
  induction fs with
  | nil => rfl
  | cons f fs ih => obtain ⟨k, x⟩ := f; simp [pyFields, ih]

mutual
theorem py_val : ∀ (j : Json), j.py.val = j.val
  | null | bool _ | int _ | real _ | str _ => rfl
  | arr items => by simp [py, PyVal.val, val, py_vals items]
  | obj fields => by simp [py, PyVal.val, val, py_fieldVals fields]
theorem py_vals : ∀ (js : List Json), PyVal.vals (pyAll js) = valAll js
  | [] => rfl
  | x :: xs => by simp [pyAll, PyVal.vals, valAll, py_val x, py_vals xs]
theorem py_fieldVals : ∀ (fs : List (String × Json)), PyVal.fieldVals (pyFields fs) = valFields fs
  | [] => rfl
  | (k, x) :: xs => by simp [pyFields, PyVal.fieldVals, valFields, py_val x, py_fieldVals xs]
end

mutual
theorem py_commands : ∀ {j : Json}, j.Ordinary → j.events.map handler = j.py.commands
  | null, _ | bool _, _ | real _, _ | str _, _ => rfl
  | int x, h => by
    simp only [Ordinary] at h
    simp [events, py, PyVal.commands, handler, toInt64_of h]
  | arr items, h => by
    simp only [Ordinary] at h
    simp [events, py, PyVal.commands, handler, py_listCommands h]
  | obj fields, h => by
    simp only [Ordinary] at h
    simp [events, py, PyVal.commands, handler, py_dictCommands h.2]
theorem py_listCommands : ∀ {js : List Json}, OrdinaryAll js →
    (eventsAll js).map handler = PyVal.listCommands (pyAll js)
  | [], _ => rfl
  | x :: xs, h => by
    simp only [OrdinaryAll] at h
    simp [eventsAll, pyAll, PyVal.listCommands, py_commands h.1, py_listCommands h.2]
theorem py_dictCommands : ∀ {fs : List (String × Json)}, OrdinaryFields fs →
    (eventsFields fs).map handler = PyVal.dictCommands (pyFields fs)
  | [], _ => rfl
  | (k, x) :: xs, h => by
    simp only [OrdinaryFields] at h
    simp [eventsFields, pyFields, PyVal.dictCommands, handler, cString_of h.1, py_commands h.2.1,
      py_dictCommands h.2.2]
end

mutual
theorem py_ok : ∀ {j : Json}, j.Ordinary →
    j.py.DistinctKeys ∧ j.py.OneEncoding true ∧ ∀ b, j.py.TupleLengths [] b
  | null, _ | bool _, _ | real _, _ | str _, _ | int _, _ => by
    simp [py, PyVal.DistinctKeys, PyVal.OneEncoding, PyVal.TupleLengths]
  | arr items, h => by
    simp only [Ordinary] at h
    simpa [py, PyVal.DistinctKeys, PyVal.OneEncoding, PyVal.TupleLengths] using py_okAll h
  | obj fields, h => by
    simp only [Ordinary] at h
    simpa [py, PyVal.DistinctKeys, PyVal.OneEncoding, PyVal.TupleLengths, pyFields_keys, h.1]
      using py_okFields h.2
theorem py_okAll : ∀ {js : List Json}, OrdinaryAll js →
    PyVal.DistinctKeysAll (pyAll js) ∧ PyVal.OneEncodingAll true (pyAll js) ∧
      ∀ b, PyVal.TupleLengthsAll [] b (pyAll js)
  | [], _ => by simp [pyAll, PyVal.DistinctKeysAll, PyVal.OneEncodingAll, PyVal.TupleLengthsAll]
  | x :: xs, h => by
    simp only [OrdinaryAll] at h
    obtain ⟨h1, h2, h3⟩ := py_ok h.1
    obtain ⟨g1, g2, g3⟩ := py_okAll h.2
    exact ⟨⟨h1, g1⟩, ⟨h2, g2⟩, fun b => ⟨h3 b, g3 b⟩⟩
theorem py_okFields : ∀ {fs : List (String × Json)}, OrdinaryFields fs →
    PyVal.DistinctKeysFields (pyFields fs) ∧ PyVal.OneEncodingFields true (pyFields fs) ∧
      ∀ b, PyVal.TupleLengthsFields [] b (pyFields fs)
  | [], _ => by
    simp [pyFields, PyVal.DistinctKeysFields, PyVal.OneEncodingFields, PyVal.TupleLengthsFields]
  | (k, x) :: xs, h => by
    simp only [OrdinaryFields] at h
    obtain ⟨h1, h2, h3⟩ := py_ok h.2.1
    obtain ⟨g1, g2, g3⟩ := py_okFields h.2.2
    exact ⟨⟨h1, g1⟩, ⟨h2, g2⟩, fun b => ⟨h3 b, g3 b⟩⟩
end

theorem valAll_eq (js : List Json) : valAll js = js.map val := by
  induction js with
  | nil => rfl
  | cons j js ih => simp [valAll, ih]

theorem valFields_eq (ks : List String) (js : List Json) :
    valFields (ks.zip js) = ks.zip (js.map val) := by
  induction ks generalizing js with
  | nil => rfl
  | cons k ks ih => cases js <;> simp [valFields, ih]

theorem ordinaryAll_iff {js : List Json} : OrdinaryAll js ↔ ∀ j ∈ js, j.Ordinary := by
  induction js with
  | nil => simp [OrdinaryAll]
  | cons j js ih => simp [OrdinaryAll, ih]

/-- The commands of a text of several documents. -/
theorem documents_commands {js : List Json} (h : ∀ j ∈ js, j.Ordinary) :
    (js.map events).flatten.map handler = (js.map py).flatMap PyVal.commands := by
  induction js with
  | nil => rfl
  | cons j js ih =>
    simp [py_commands (h j (by simp)), ← ih (fun j hj => h j (by simp [hj]))]

mutual
/-- A JSON value is the JSON of what it shows. -/
theorem jsonOf_val (names : Option (String × String)) : ∀ {j : Json}, j.Ordinary → JsonOf names j.val j
  | null, _ => .null
  | bool _, _ => .bool _
  | real _, _ => .real _
  | str codes, h => .str codes (by simpa only [Ordinary] using h)
  | int x, h => .int x (by simpa only [Ordinary] using h)
  | arr items, h => by
    simp only [Ordinary] at h
    have := jsonOf_vals names h
    simp only [val, valAll_eq]
    refine .list (by simp) (fun i g g' => ?_)
    simpa using this _ (List.getElem_mem g')
  | obj fields, h => by
    simp only [Ordinary] at h
    have h' := jsonOf_fieldVals names h.2
    have e1 : fields = (fields.map Prod.fst).zip (fields.map Prod.snd) := by
      have := (List.zip_unzip fields).symm
      rwa [List.unzip_eq_map] at this
    have e2 : (obj fields).val =
        .record ((fields.map Prod.fst).zip ((fields.map Prod.snd).map val)) := by
      rw [← valFields_eq, ← e1]; rfl
    rw [e2]
    conv => rhs; rw [e1]
    refine .record (by simp) (by simp) ?_ (fun i g g' => ?_)
    · intro k hk
      obtain ⟨f, hf, rfl⟩ := List.mem_map.mp hk
      exact (h' f hf).1
    · have := (h' _ (List.getElem_mem (show i < fields.length by simpa using g'))).2
      simpa using this
theorem jsonOf_vals (names : Option (String × String)) : ∀ {js : List Json}, OrdinaryAll js →
    ∀ j ∈ js, JsonOf names j.val j
  | [], _ => by simp
  | x :: xs, h => by
    simp only [OrdinaryAll] at h
    have h1 := jsonOf_val names h.1
    have h2 := jsonOf_vals names h.2
    exact List.forall_mem_cons.mpr ⟨h1, h2⟩
theorem jsonOf_fieldVals (names : Option (String × String)) : ∀ {fs : List (String × Json)},
    OrdinaryFields fs → ∀ f ∈ fs, NoNul f.1 ∧ JsonOf names f.2.val f.2
  | [], _ => by simp
  | (k, x) :: xs, h => by
    simp only [OrdinaryFields] at h
    have h1 := jsonOf_val names h.2.1
    have h2 := jsonOf_fieldVals names h.2.2
    exact List.forall_mem_cons.mpr ⟨⟨h.1, h1⟩, h2⟩
end

end Spec.Json
end Awk
