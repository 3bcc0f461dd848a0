import Verif.Proofs.SimpleWriter.Value
/-!
# What is written by closures of the Simple writer API
-/

namespace Verif.SimpleWriter
open Writer Json SimpleSpec
open WSpec (Written Step Rejected Denotes Frame)
open Transfer (add_str)

variable {wst : WSettings} {c : Core} {w : Written} {α : Type}

/-! ## Open containers and strings are only closed by the operation which opened them -/

/-- a string value is not finished, or at least `L` containers are open -/
def Grow (L : Nat) (w : Written) : Prop := w.str ≠ none ∨ L ≤ w.frames.length

theorem Grow.mono {L L' : Nat} (h : Grow L w) (hl : L' ≤ L) : Grow L' w := h.imp_right fun h => Nat.le_trans hl h

theorem add_length {v : JVal} : (w.add v).frames.length = w.frames.length := by
  unfold Written.add
  split <;> simp_all

theorem grow_add {L : Nat} {v : JVal} (h : Grow L w) : Grow L (w.add v) := by
  unfold Grow
  rw [add_str, add_length]
  exact h

/-- a method which writes a value -/
def IsScalar : WOp → Prop
  | .nullValue | .boolValue _ | .stringValue _ | .numberValue _ | .fpNumberValue _ | .numberValueFromString _ => True
  | _ => False

theorem step_scalar {op : WOp} {w' : Written} (hv : IsScalar op) (hr : ¬ Rejected op) (hs : Step wst w op w') : w.CanAdd wst ∧ ∃ v, Denotes op v ∧ w' = w.add v := by
  cases hs with
  | value h hd => exact ⟨h, _, hd, rfl⟩
  | rejected h => exact absurd h hr
  | unfinished h hu => cases hu <;> exact hv.elim
  | beginArray h => exact hv.elim
  | beginObject h => exact hv.elim
  | endArray => exact hv.elim
  | endObject => exact hv.elim
  | name => exact hv.elim
  | finish => exact hv.elim

theorem scalar_ends {op : WOp} {m : W Unit} {wc : WCall} (hi : WInv wst c w) (hok : WOk wst w) (hop : OpOk op) (hv : IsScalar op) (hp : perform wc = unit m)
    (hm : wop op = (m >>= fun _ => pure .unit)) :
    Ends wst (call wc) c w (fun r w' => r = .ok () ∧ w.CanAdd wst ∧ ∃ v, Denotes op v ∧ w' = w.add v) (¬ w.CanAdd wst) := by
  by_cases hr : Rejected op
  · refine (call_ends hi hok hop hp hm).mono ?_ fun h => absurd ⟨w, .rejected hr⟩ h
    rintro r w' ⟨_, h, _⟩
    exact absurd hr h
  · by_cases hc : w.CanAdd wst
    · cases wop_outcome hi hok op hop with
      | done w' out bs c' h1 h2 h3 h4 h5 h6 =>
        refine (call_ends hi hok hop hp hm).mono ?_ fun h => absurd ⟨_, h1⟩ h
        rintro r w' ⟨h1, h2, h3⟩
        exact ⟨h1, step_scalar hv hr h3⟩
      | rejected h1 h2 => exact absurd h1 hr
      | panic u h1 h2 =>
        exfalso
        refine h2 ?_
        match op, hv with
        | .nullValue, _ => exact ⟨_, .value hc .null⟩
        | .boolValue b, _ => exact ⟨_, .value hc (.bool b)⟩
        | .stringValue t, _ => exact ⟨_, .value hc (.string t)⟩
        | .numberValue (.int ty i), _ => exact ⟨_, .value hc (.int ty i _ (intToString_isInteger i))⟩
        | .numberValue (.transferred t), _ => exact ⟨_, .value hc (.transferred t hop)⟩
        | .fpNumberValue ⟨true, t⟩, _ => exact ⟨_, .value hc (.float t (hop rfl))⟩
        | .fpNumberValue ⟨false, t⟩, _ => exact absurd (.float t) hr
        | .numberValueFromString t, _ =>
          by_cases ht : IsNumber (enc t)
          · exact ⟨_, .value hc (.number t ht)⟩
          · exact absurd (.number t ht) hr
    · refine (call_ends hi hok hop hp hm).mono ?_ fun _ => hc
      rintro r w' ⟨h1, h2, h3⟩
      exact ⟨h1, step_scalar hv hr h3⟩

theorem beginArray_ends (hi : WInv wst c w) (hok : WOk wst w) :
    Ends wst (call .beginArray) c w (fun r w' => r = .ok () ∧ w.CanAdd wst ∧ w' = ⟨w.tops, .arr [] :: w.frames, none⟩) (¬ w.CanAdd wst) := by
  refine (call_ends (op := .beginArray) hi hok trivial rfl rfl).mono ?_ fun h hc => h ⟨_, .beginArray hc⟩
  rintro r w' ⟨rfl, hr, hs⟩
  cases hs with
  | value _ hd => cases hd
  | rejected h => exact absurd h hr
  | unfinished _ hu => cases hu
  | beginArray hc => exact ⟨rfl, hc, by rw [hc.1]⟩

theorem beginObject_ends (hi : WInv wst c w) (hok : WOk wst w) :
    Ends wst (call .beginObject) c w (fun r w' => r = .ok () ∧ w.CanAdd wst ∧ w' = ⟨w.tops, .obj [] none :: w.frames, none⟩) (¬ w.CanAdd wst) := by
  refine (call_ends (op := .beginObject) hi hok trivial rfl rfl).mono ?_ fun h hc => h ⟨_, .beginObject hc⟩
  rintro r w' ⟨rfl, hr, hs⟩
  cases hs with
  | value _ hd => cases hd
  | rejected h => exact absurd h hr
  | unfinished _ hu => cases hu
  | beginObject hc => exact ⟨rfl, hc, by rw [hc.1]⟩

theorem endArray_ends (hi : WInv wst c w) (hok : WOk wst w) :
    Ends wst (call .endArray) c w (fun r w' => r = .ok () ∧ ∃ tops vs fs, w = ⟨tops, .arr vs :: fs, none⟩ ∧ w' = Written.add ⟨tops, fs, none⟩ (.arr vs))
      (¬ ∃ tops vs fs, w = ⟨tops, .arr vs :: fs, none⟩) := by
  refine (call_ends (op := .endArray) hi hok trivial rfl rfl).mono ?_ ?_
  · rintro r w' ⟨rfl, hr, hs⟩
    cases hs with
    | value _ hd => cases hd
    | rejected h => exact absurd h hr
    | unfinished _ hu => cases hu
    | endArray => exact ⟨rfl, _, _, _, rfl, rfl⟩
  · rintro h ⟨_, _, _, rfl⟩
    exact h ⟨_, .endArray⟩

theorem endObject_ends (hi : WInv wst c w) (hok : WOk wst w) :
    Ends wst (call .endObject) c w (fun r w' => r = .ok () ∧ ∃ tops ms fs, w = ⟨tops, .obj ms none :: fs, none⟩ ∧ w' = Written.add ⟨tops, fs, none⟩ (.obj ms))
      (¬ ∃ tops ms fs, w = ⟨tops, .obj ms none :: fs, none⟩) := by
  refine (call_ends (op := .endObject) hi hok trivial rfl rfl).mono ?_ ?_
  · rintro r w' ⟨rfl, hr, hs⟩
    cases hs with
    | value _ hd => cases hd
    | rejected h => exact absurd h hr
    | unfinished _ hu => cases hu
    | endObject => exact ⟨rfl, _, _, _, rfl, rfl⟩
  · rintro h ⟨_, _, _, rfl⟩
    exact h ⟨_, .endObject⟩

theorem name_ends {n : Text} (hi : WInv wst c w) (hok : WOk wst w) :
    Ends wst (call (.name n)) c w (fun r w' => r = .ok () ∧ ∃ tops ms fs, w = ⟨tops, .obj ms none :: fs, none⟩ ∧ w' = ⟨tops, .obj ms (some n) :: fs, none⟩)
      (¬ ∃ tops ms fs, w = ⟨tops, .obj ms none :: fs, none⟩) := by
  refine (call_ends (op := .name n) hi hok trivial rfl rfl).mono ?_ ?_
  · rintro r w' ⟨rfl, hr, hs⟩
    cases hs with
    | value _ hd => cases hd
    | rejected h => exact absurd h hr
    | unfinished _ hu => cases hu
    | name => exact ⟨rfl, _, _, _, rfl, rfl⟩
  · rintro h ⟨_, _, _, rfl⟩
    exact h ⟨_, .name⟩

theorem scalar_grow {op : WOp} {m : W Unit} {wc : WCall} {L : Nat} (hi : WInv wst c w) (hok : WOk wst w) (hop : OpOk op) (hv : IsScalar op) (hp : perform wc = unit m)
    (hm : wop op = (m >>= fun _ => pure .unit)) (hg : Grow L w) : Ends wst (call wc) c w (fun _ w' => Grow L w') True := by
  refine (scalar_ends hi hok hop hv hp hm).mono ?_ fun _ => trivial
  rintro r w' ⟨_, _, v, _, rfl⟩
  exact grow_add hg

/-- the end of `write_member` -/
theorem stick_ite (b : Bool) : Stick (if !b then call .nullValue else pure () : X Unit) := by
  cases b
  · exact stick_call _
  · exact stick_pure _

theorem canAdd_grow {L : Nat} (hc : w.CanAdd wst) (hg : Grow L w) : L ≤ w.frames.length := hg.resolve_left fun h => h hc.1

mutual
theorem value_grow : (o : ValOp) → Fine o → ∀ {c : Core} {w : Written} {L : Nat}, WInv wst c w → WOk wst w → Grow L w → Ends wst (value o) c w (fun _ w' => Grow L w') True
  | .null, _, _, _, _, hi, hok, hg => scalar_grow (op := .nullValue) hi hok trivial trivial rfl rfl hg
  | .bool b, _, _, _, _, hi, hok, hg => scalar_grow (op := .boolValue b) hi hok trivial trivial rfl rfl hg
  | .string t, _, _, _, _, hi, hok, hg => scalar_grow (op := .stringValue t) hi hok trivial trivial rfl rfl hg
  | .number (.int ty i), _, _, _, _, hi, hok, hg => scalar_grow (op := .numberValue (.int ty i)) hi hok trivial trivial rfl rfl hg
  | .number (.transferred t), hf, _, _, _, hi, hok, hg => scalar_grow (op := .numberValue (.transferred t)) hi hok (by rw [Fine] at hf; exact hf) trivial rfl rfl hg
  | .fpNumber n, hf, _, _, _, hi, hok, hg => scalar_grow (op := .fpNumberValue n) hi hok (by rw [Fine] at hf; exact hf) trivial rfl rfl hg
  | .numberString t, _, _, _, _, hi, hok, hg => scalar_grow (op := .numberValueFromString t) hi hok trivial trivial rfl rfl hg
  | .serialize v, hf, _, _, _, hi, hok, hg => by
    unfold value
    refine (serialize_call hi hok v (by rw [Fine] at hf; exact hf)).mono ?_ fun _ => trivial
    rintro r w' ⟨_, _, j, _, rfl⟩
    exact grow_add hg
  | .stringWithWriter f, _, _, _, _, hi, hok, hg => by
    unfold value
    refine (string_ends f hi hok).mono ?_ fun _ => trivial
    rintro r w' ⟨_, ⟨_, _, t, _, _, rfl⟩ | ⟨_, h⟩⟩
    · exact grow_add hg
    · exact .inl h
  | .array f, hf, _, w, L, hi, hok, hg => by
    unfold value
    refine (beginArray_ends hi hok).bind (fun _ => ((stick_arr f).bind fun _ => stick_call _).stops) (fun _ => trivial) (by rintro e w' ⟨h, _⟩; cases h) ?_
    rintro - c1 w1 hi1 hok1 ⟨-, hc, rfl⟩
    have hg1 : Grow (L + 1) ⟨w.tops, .arr [] :: w.frames, none⟩ := .inr (Nat.succ_le_succ (canAdd_grow hc hg))
    refine (arr_grow f (by rw [Fine] at hf; exact hf) hi1 hok1 hg1).bind (fun _ => (stick_call _).stops) id (fun e w' h => h.mono (Nat.le_succ L)) ?_
    intro _ c2 w2 hi2 hok2 hg2
    refine (endArray_ends hi2 hok2).mono ?_ fun _ => trivial
    rintro r w3 ⟨_, tops, vs, fs, rfl, rfl⟩
    exact grow_add (.inr (Nat.le_of_succ_le_succ (hg2.resolve_left fun h => h rfl)))
  | .object f, hf, _, w, L, hi, hok, hg => by
    unfold value
    refine (beginObject_ends hi hok).bind (fun _ => ((stick_obj f).bind fun _ => stick_call _).stops) (fun _ => trivial) (by rintro e w' ⟨h, _⟩; cases h) ?_
    rintro - c1 w1 hi1 hok1 ⟨-, hc, rfl⟩
    have hg1 : Grow (L + 1) ⟨w.tops, .obj [] none :: w.frames, none⟩ := .inr (Nat.succ_le_succ (canAdd_grow hc hg))
    refine (obj_grow f (by rw [Fine] at hf; exact hf) hi1 hok1 hg1).bind (fun _ => (stick_call _).stops) id (fun e w' h => h.mono (Nat.le_succ L)) ?_
    intro _ c2 w2 hi2 hok2 hg2
    refine (endObject_ends hi2 hok2).mono ?_ fun _ => trivial
    rintro r w3 ⟨_, tops, vs, fs, rfl, rfl⟩
    exact grow_add (.inr (Nat.le_of_succ_le_succ (hg2.resolve_left fun h => h rfl)))
theorem arr_grow : (f : ArrC) → FineArr f → ∀ {c : Core} {w : Written} {L : Nat}, WInv wst c w → WOk wst w → Grow L w → Ends wst (arr f) c w (fun _ w' => Grow L w') True
  | .ret r, _, _, _, _, hi, hok, hg => by unfold arr; exact ends_ofExcept r hi hok hg
  | .value o k, hf, _, _, _, hi, hok, hg => by
    unfold arr
    rw [FineArr] at hf
    exact (value_grow o hf.1 hi hok hg).attempt (fun r => (stick_arr _).stops) id fun r c' w' hi' hok' hg' => arr_grow (k r) (hf.2 r) hi' hok' hg'
theorem obj_grow : (f : ObjC) → FineObj f → ∀ {c : Core} {w : Written} {L : Nat}, WInv wst c w → WOk wst w → Grow L w → Ends wst (obj f) c w (fun _ w' => Grow L w') True
  | .ret r, _, _, _, _, hi, hok, hg => by unfold obj; exact ends_ofExcept r hi hok hg
  | .member n f k, hf, _, _, L, hi, hok, hg => by
    unfold obj
    rw [FineObj] at hf
    refine Ends.attempt (P := fun _ w' => Grow L w') (Q := True) ?_ (fun r => (stick_obj _).stops) id fun r c' w' hi' hok' hg' => obj_grow (k r) (hf.2 r) hi' hok' hg'
    refine (name_ends hi hok).bind ?_ (fun _ => trivial) (by rintro e w' ⟨h, _⟩; cases h) ?_
    · exact fun _ => ((stick_mem f).bind fun b => stick_ite b).stops
    · rintro - c1 w1 hi1 hok1 ⟨-, tops, ms, fs, rfl, rfl⟩
      refine (mem_grow f hf.1 hi1 hok1 (.inr (hg.resolve_left fun h => h rfl))).bind (fun b => (stick_ite b).stops) id (fun _ _ h => h) ?_
      intro b c2 w2 hi2 hok2 hg2
      cases b with
      | true => exact ends_pure () hi2 hok2 hg2
      | false => exact scalar_grow (op := .nullValue) hi2 hok2 trivial trivial rfl rfl hg2
  | .memberValue n o k, hf, _, _, L, hi, hok, hg => by
    unfold obj
    rw [FineObj] at hf
    refine Ends.attempt (P := fun _ w' => Grow L w') (Q := True) ?_ (fun r => (stick_obj _).stops) id fun r c' w' hi' hok' hg' => obj_grow (k r) (hf.2 r) hi' hok' hg'
    refine (name_ends hi hok).bind (fun _ => (stick_value o).stops) (fun _ => trivial) (by rintro e w' ⟨h, _⟩; cases h) ?_
    rintro - c1 w1 hi1 hok1 ⟨-, tops, ms, fs, rfl, rfl⟩
    exact value_grow o hf.1 hi1 hok1 (.inr (hg.resolve_left fun h => h rfl))
theorem mem_grow : (f : MemC) → FineMem f → ∀ {c : Core} {w : Written} {L : Nat}, WInv wst c w → WOk wst w → Grow L w → Ends wst (mem f) c w (fun _ w' => Grow L w') True
  | .ret r, _, _, _, L, hi, hok, hg => by
    unfold mem
    exact Ends.bind (P := fun _ w' => Grow L w') (Q := True) (ends_ofExcept r hi hok hg) (fun _ => (stick_pure _).stops) id (fun _ _ h => h) fun _ c' w' hi' hok' hg' => ends_pure _ hi' hok' hg'
  | .value o k, hf, _, _, L, hi, hok, hg => by
    unfold mem
    refine (value_grow o (by rw [FineMem] at hf; exact hf) hi hok hg).attempt (fun r => ((stick_ofExcept _).bind fun _ => stick_pure _).stops) id fun r c' w' hi' hok' hg' => ?_
    exact Ends.bind (P := fun _ w' => Grow L w') (Q := True) (ends_ofExcept (k r) hi' hok' hg') (fun _ => (stick_pure _).stops) id (fun _ _ h => h) fun _ c' w' hi' hok' hg' => ends_pure _ hi' hok' hg'
end

/-! ## Results -/

theorem obj_pend (f : ObjC) {tops : List JVal} {ms : List (Text × JVal)} {n : Text} {fs : List Frame} (hi : WInv wst c ⟨tops, .obj ms (some n) :: fs, none⟩)
    (hok : WOk wst ⟨tops, .obj ms (some n) :: fs, none⟩) : Ends wst (obj f) c ⟨tops, .obj ms (some n) :: fs, none⟩ (fun _ w' => w' = ⟨tops, .obj ms (some n) :: fs, none⟩) True := by
  cases f with
  | ret r => unfold obj; exact ends_ofExcept r hi hok rfl
  | member n' f k =>
    unfold obj
    refine Ends.attempt (P := fun _ _ => False) (Q := True) ?_ (fun r => (stick_obj _).stops) id fun r c' w' _ _ h => h.elim
    refine (name_ends hi hok).bind ?_ (fun _ => trivial) (by rintro e w' ⟨h, _⟩; cases h) ?_
    · exact fun _ => ((stick_mem f).bind fun b => stick_ite b).stops
    · rintro - c1 w1 hi1 hok1 ⟨-, tops', ms', fs', he, rfl⟩
      cases he
  | memberValue n' o k =>
    unfold obj
    refine Ends.attempt (P := fun _ _ => False) (Q := True) ?_ (fun r => (stick_obj _).stops) id fun r c' w' _ _ h => h.elim
    refine (name_ends hi hok).bind (fun _ => (stick_value o).stops) (fun _ => trivial) (by rintro e w' ⟨h, _⟩; cases h) ?_
    rintro - c1 w1 hi1 hok1 ⟨-, tops', ms', fs', he, rfl⟩
    cases he

/-- space for the value of a member -/
def Pend (w : Written) : Prop := ∃ tops ms n fs, w = ⟨tops, .obj ms (some n) :: fs, none⟩

mutual
theorem value_ends : (o : ValOp) → Fine o → ∀ {c : Core} {w : Written}, WInv wst c w → WOk wst w → w.CanAdd wst →
    Ends wst (value o) c w (fun r w' => (r = .ok () ∧ ∃ j, Writes o j ∧ w' = w.add j) ∨ (¬ Honest o ∧ Grow (w.frames.length + 1) w')) (¬ Honest o)
  | .null, _, _, _, hi, hok, hc => by
    refine (scalar_ends (op := .nullValue) hi hok trivial trivial rfl rfl).mono ?_ fun h => absurd hc h
    rintro r w' ⟨rfl, _, v, hd, rfl⟩
    cases hd
    exact .inl ⟨rfl, _, .null, rfl⟩
  | .bool b, _, _, _, hi, hok, hc => by
    refine (scalar_ends (op := .boolValue b) hi hok trivial trivial rfl rfl).mono ?_ fun h => absurd hc h
    rintro r w' ⟨rfl, _, v, hd, rfl⟩
    cases hd
    exact .inl ⟨rfl, _, .bool b, rfl⟩
  | .string t, _, _, _, hi, hok, hc => by
    refine (scalar_ends (op := .stringValue t) hi hok trivial trivial rfl rfl).mono ?_ fun h => absurd hc h
    rintro r w' ⟨rfl, _, v, hd, rfl⟩
    cases hd
    exact .inl ⟨rfl, _, .string t, rfl⟩
  | .number (.int ty i), _, _, _, hi, hok, hc => by
    refine (scalar_ends (op := .numberValue (.int ty i)) hi hok trivial trivial rfl rfl).mono ?_ fun h => absurd hc h
    rintro r w' ⟨rfl, _, v, hd, rfl⟩
    cases hd
    exact .inl ⟨rfl, _, .int ‹_›, rfl⟩
  | .number (.transferred t), hf, _, _, hi, hok, hc => by
    refine (scalar_ends (op := .numberValue (.transferred t)) hi hok (by rw [Fine] at hf; exact hf) trivial rfl rfl).mono ?_ fun h => absurd hc h
    rintro r w' ⟨rfl, _, v, hd, rfl⟩
    cases hd
    exact .inl ⟨rfl, _, .transferred ‹_›, rfl⟩
  | .fpNumber n, hf, _, _, hi, hok, hc => by
    refine (scalar_ends (op := .fpNumberValue n) hi hok (by rw [Fine] at hf; exact hf) trivial rfl rfl).mono ?_ fun h => absurd hc h
    rintro r w' ⟨rfl, _, v, hd, rfl⟩
    cases hd
    exact .inl ⟨rfl, _, .fpNumber, rfl⟩
  | .numberString t, _, _, _, hi, hok, hc => by
    refine (scalar_ends (op := .numberValueFromString t) hi hok trivial trivial rfl rfl).mono ?_ fun h => absurd hc h
    rintro r w' ⟨rfl, _, v, hd, rfl⟩
    cases hd
    exact .inl ⟨rfl, _, .numberString ‹_›, rfl⟩
  | .serialize v, hf, _, _, hi, hok, hc => by
    unfold value
    refine (serialize_call hi hok v (by rw [Fine] at hf; exact hf)).mono ?_ fun h => absurd hc h
    rintro r w' ⟨rfl, _, j, hj, rfl⟩
    exact .inl ⟨rfl, j, .serialize hj, rfl⟩
  | .stringWithWriter f, _, _, _, hi, hok, hc => by
    unfold value
    refine (string_ends f hi hok).mono ?_ fun h => absurd hc h
    rintro r w' ⟨_, ⟨rfl, ops, t, h1, h2, rfl⟩ | ⟨h1, h2⟩⟩
    · exact .inl ⟨rfl, _, .stringWithWriter h1 h2, rfl⟩
    · exact .inr ⟨by rw [Honest]; exact h1, .inl h2⟩
  | .array f, hf, _, w, hi, hok, hc => by
    unfold value
    have hh : ¬ HonestArr f → ¬ Honest (.array f) := by rw [Honest]; exact id
    refine (beginArray_ends hi hok).bind (fun _ => ((stick_arr f).bind fun _ => stick_call _).stops) (fun h => absurd hc h) (by rintro e w' ⟨h, _⟩; cases h) ?_
    rintro - c1 w1 hi1 hok1 ⟨-, -, rfl⟩
    refine (arr_ends f (by rw [Fine] at hf; exact hf) hi1 hok1).bind (fun _ => (stick_call _).stops) hh ?_ ?_
    · rintro e w' (⟨h, _⟩ | ⟨h, hg | ⟨_, hg⟩⟩)
      · cases h
      · exact .inr ⟨hh h, hg.mono (Nat.le_succ _)⟩
      · exact .inr ⟨hh h, hg⟩
    · rintro a c2 w2 hi2 hok2 (⟨-, us, hw, rfl⟩ | ⟨h, hg | ⟨⟨_, he⟩, _⟩⟩)
      · refine (endArray_ends hi2 hok2).mono ?_ fun h => absurd ⟨_, _, _, rfl⟩ h
        rintro r w3 ⟨rfl, tops, vs, fs, he, rfl⟩
        cases he
        refine .inl ⟨rfl, _, .array hw, ?_⟩
        rw [List.nil_append, ← hc.1]
      · refine (endArray_ends hi2 hok2).mono ?_ fun _ => hh h
        rintro r w3 ⟨_, tops, vs, fs, rfl, rfl⟩
        exact .inr ⟨hh h, grow_add (.inr (Nat.le_of_succ_le_succ (hg.resolve_left fun h => h rfl)))⟩
      · cases he
  | .object f, hf, _, w, hi, hok, hc => by
    unfold value
    have hh : ¬ HonestObj f → ¬ Honest (.object f) := by rw [Honest]; exact id
    refine (beginObject_ends hi hok).bind (fun _ => ((stick_obj f).bind fun _ => stick_call _).stops) (fun h => absurd hc h) (by rintro e w' ⟨h, _⟩; cases h) ?_
    rintro - c1 w1 hi1 hok1 ⟨-, -, rfl⟩
    refine (obj_ends f (by rw [Fine] at hf; exact hf) hi1 hok1).bind (fun _ => (stick_call _).stops) hh ?_ ?_
    · rintro e w' (⟨h, _⟩ | ⟨h, hg | ⟨_, hg⟩⟩)
      · cases h
      · exact .inr ⟨hh h, hg.mono (Nat.le_succ _)⟩
      · exact .inr ⟨hh h, hg⟩
    · rintro a c2 w2 hi2 hok2 (⟨-, us, hw, rfl⟩ | ⟨h, hg | ⟨⟨_, he⟩ | ⟨_, _, _, _, rfl⟩, _⟩⟩)
      · refine (endObject_ends hi2 hok2).mono ?_ fun h => absurd ⟨_, _, _, rfl⟩ h
        rintro r w3 ⟨rfl, tops, vs, fs, he, rfl⟩
        cases he
        refine .inl ⟨rfl, _, .object hw, ?_⟩
        rw [List.nil_append, ← hc.1]
      · refine (endObject_ends hi2 hok2).mono ?_ fun _ => hh h
        rintro r w3 ⟨_, tops, vs, fs, rfl, rfl⟩
        exact .inr ⟨hh h, grow_add (.inr (Nat.le_of_succ_le_succ (hg.resolve_left fun h => h rfl)))⟩
      · cases he
      · refine (endObject_ends hi2 hok2).mono ?_ fun _ => hh h
        rintro r w3 ⟨_, tops, vs, fs, he, rfl⟩
        cases he
theorem arr_ends : (f : ArrC) → FineArr f → ∀ {c : Core} {tops : List JVal} {vs : List JVal} {fs : List Frame}, WInv wst c ⟨tops, .arr vs :: fs, none⟩ → WOk wst ⟨tops, .arr vs :: fs, none⟩ →
    Ends wst (arr f) c ⟨tops, .arr vs :: fs, none⟩ (fun r w' => (r = .ok () ∧ ∃ us, ArrWrites f us ∧ w' = ⟨tops, .arr (vs ++ us) :: fs, none⟩) ∨
      (¬ HonestArr f ∧ (Grow (fs.length + 2) w' ∨ (∃ e, r = .error e) ∧ Grow (fs.length + 1) w'))) (¬ HonestArr f)
  | .ret (.ok ()), _, _, _, _, _, hi, hok => by unfold arr; exact ends_ofExcept _ hi hok (.inl ⟨rfl, [], .done, by rw [List.append_nil]⟩)
  | .ret (.error e), _, _, _, _, _, hi, hok => by
    unfold arr
    exact ends_ofExcept _ hi hok (.inr ⟨by rw [HonestArr]; nofun, .inr ⟨⟨e, rfl⟩, .inr (Nat.le_refl _)⟩⟩)
  | .value o k, hf, _, tops, vs, fs, hi, hok => by
    unfold arr
    rw [FineArr] at hf
    have hh : ¬ Honest o ∨ ¬ HonestArr (k (.ok ())) → ¬ HonestArr (.value o k) := by
      rw [HonestArr]
      rintro (h | h) ⟨h1, h2⟩
      · exact h h1
      · exact h h2
    refine (value_ends o hf.1 hi hok ⟨rfl, trivial⟩).attempt (fun r => (stick_arr _).stops) (fun h => hh (.inl h)) ?_
    rintro r c1 w1 hi1 hok1 (⟨rfl, j, hw, rfl⟩ | ⟨h, hg⟩)
    · refine (arr_ends (k (.ok ())) (hf.2 _) hi1 hok1).mono ?_ fun h => hh (.inr h)
      rintro r w' (⟨rfl, us, hu, rfl⟩ | ⟨h, hg⟩)
      · exact .inl ⟨rfl, j :: us, .value hw hu, by rw [List.append_assoc]; rfl⟩
      · exact .inr ⟨hh (.inr h), hg⟩
    · refine (arr_grow (k r) (hf.2 r) hi1 hok1 hg).mono ?_ fun _ => hh (.inl h)
      exact fun r w' hg => .inr ⟨hh (.inl h), .inl hg⟩
theorem obj_ends : (f : ObjC) → FineObj f → ∀ {c : Core} {tops : List JVal} {ms : List (Text × JVal)} {fs : List Frame}, WInv wst c ⟨tops, .obj ms none :: fs, none⟩ →
    WOk wst ⟨tops, .obj ms none :: fs, none⟩ →
    Ends wst (obj f) c ⟨tops, .obj ms none :: fs, none⟩ (fun r w' => (r = .ok () ∧ ∃ us, ObjWrites f us ∧ w' = ⟨tops, .obj (ms ++ us) none :: fs, none⟩) ∨
      (¬ HonestObj f ∧ (Grow (fs.length + 2) w' ∨ ((∃ e, r = .error e) ∨ Pend w') ∧ Grow (fs.length + 1) w'))) (¬ HonestObj f)
  | .ret (.ok ()), _, _, _, _, _, hi, hok => by unfold obj; exact ends_ofExcept _ hi hok (.inl ⟨rfl, [], .done, by rw [List.append_nil]⟩)
  | .ret (.error e), _, _, _, _, _, hi, hok => by
    unfold obj
    exact ends_ofExcept _ hi hok (.inr ⟨by rw [HonestObj]; nofun, .inr ⟨.inl ⟨e, rfl⟩, .inr (Nat.le_refl _)⟩⟩)
  | .member n f k, hf, _, tops, ms, fs, hi, hok => by
    unfold obj
    rw [FineObj] at hf
    have hh : ¬ HonestMem f ∨ ¬ HonestObj (k (.ok ())) → ¬ HonestObj (.member n f k) := by
      rw [HonestObj]
      rintro (h | h) ⟨h1, h2⟩
      · exact h h1
      · exact h h2
    refine Ends.attempt (Q := ¬ HonestMem f)
      (P := fun r w' => (∃ v, MemWrites f v r ∧ w' = ⟨tops, .obj (ms ++ [(n, v)]) none :: fs, none⟩ ∧ (HonestMem f → r = .ok ())) ∨
        (¬ HonestMem f ∧ (w' = ⟨tops, .obj ms (some n) :: fs, none⟩ ∨ Grow (fs.length + 2) w'))) ?_ (fun r => (stick_obj _).stops) (fun h => hh (.inl h)) ?_
    · refine (name_ends hi hok).bind ?_ (fun h => absurd ⟨_, _, _, rfl⟩ h) (by rintro e w' ⟨h, _⟩; cases h) ?_
      · exact fun _ => ((stick_mem f).bind fun b => stick_ite b).stops
      · rintro - c1 w1 hi1 hok1 ⟨-, tops', ms', fs', he, rfl⟩
        cases he
        refine (mem_ends f hf.1 hi1 hok1 ⟨rfl, trivial⟩).bind (fun b => (stick_ite b).stops) id ?_ ?_
        · rintro e w' (⟨v, hw, h, _⟩ | ⟨h, _⟩ | ⟨e', v, h1, h2, h3, rfl⟩ | ⟨h1, h2⟩)
          · cases h
          · cases h
          · cases h1
            exact .inl ⟨v, h3, rfl, fun h => absurd h h2⟩
          · exact .inr ⟨h1, h2.imp_left And.left⟩
        · rintro b c2 w2 hi2 hok2 (⟨v, hw, h, rfl⟩ | ⟨h, hw, rfl⟩ | ⟨e', v, h1, h2, h3, rfl⟩ | ⟨h1, ⟨-, _, he⟩ | h2⟩)
          · cases h
            exact ends_pure () hi2 hok2 (.inl ⟨v, hw, rfl, fun _ => rfl⟩)
          · cases h
            refine (scalar_ends (op := .nullValue) hi2 hok2 trivial trivial rfl rfl).mono ?_ fun h => absurd ⟨rfl, trivial⟩ h
            rintro r w' ⟨rfl, _, v, hd, rfl⟩
            cases hd
            exact .inl ⟨_, hw, rfl, fun _ => rfl⟩
          · cases h1
          · cases he
          · cases b with
            | true => exact ends_pure () hi2 hok2 (.inr ⟨h1, .inr h2⟩)
            | false => exact (scalar_grow (op := .nullValue) hi2 hok2 trivial trivial rfl rfl h2).mono (fun r w' h => .inr ⟨h1, .inr h⟩) fun _ => h1
    · rintro r c1 w1 hi1 hok1 (⟨v, hw, rfl, hr⟩ | ⟨h, rfl | hg⟩)
      · have hh' : ¬ HonestObj (k r) → ¬ HonestObj (.member n f k) := by
          intro h
          rw [HonestObj]
          rintro ⟨h1, h2⟩
          rw [hr h1] at h
          exact h h2
        refine (obj_ends (k r) (hf.2 _) hi1 hok1).mono ?_ hh'
        rintro r' w' (⟨rfl, us, hu, rfl⟩ | ⟨h, hg⟩)
        · exact .inl ⟨rfl, (n, v) :: us, .member hw hu, by rw [List.append_assoc]; rfl⟩
        · exact .inr ⟨hh' h, hg⟩
      · exact (obj_pend (k r) hi1 hok1).mono (fun r w' h' => .inr ⟨hh (.inl h), .inr ⟨.inr ⟨_, _, _, _, h'⟩, .inr (by rw [h']; exact Nat.le_refl _)⟩⟩) fun _ => hh (.inl h)
      · refine (obj_grow (k r) (hf.2 r) hi1 hok1 hg).mono ?_ fun _ => hh (.inl h)
        exact fun r w' hg => .inr ⟨hh (.inl h), .inl hg⟩
  | .memberValue n o k, hf, _, tops, ms, fs, hi, hok => by
    unfold obj
    rw [FineObj] at hf
    have hh : ¬ Honest o ∨ ¬ HonestObj (k (.ok ())) → ¬ HonestObj (.memberValue n o k) := by
      rw [HonestObj]
      rintro (h | h) ⟨h1, h2⟩
      · exact h h1
      · exact h h2
    refine Ends.attempt (Q := ¬ Honest o)
      (P := fun r w' => (r = .ok () ∧ ∃ v, Writes o v ∧ w' = ⟨tops, .obj (ms ++ [(n, v)]) none :: fs, none⟩) ∨ (¬ Honest o ∧ Grow (fs.length + 2) w')) ?_
      (fun r => (stick_obj _).stops) (fun h => hh (.inl h)) ?_
    · refine (name_ends hi hok).bind (fun _ => (stick_value o).stops) (fun h => absurd ⟨_, _, _, rfl⟩ h) (by rintro e w' ⟨h, _⟩; cases h) ?_
      rintro - c1 w1 hi1 hok1 ⟨-, tops', ms', fs', he, rfl⟩
      cases he
      exact value_ends o hf.1 hi1 hok1 ⟨rfl, trivial⟩
    · rintro r c1 w1 hi1 hok1 (⟨rfl, v, hw, rfl⟩ | ⟨h, hg⟩)
      · refine (obj_ends (k (.ok ())) (hf.2 _) hi1 hok1).mono ?_ fun h => hh (.inr h)
        rintro r w' (⟨rfl, us, hu, rfl⟩ | ⟨h, hg⟩)
        · exact .inl ⟨rfl, (n, v) :: us, .memberValue hw hu, by rw [List.append_assoc]; rfl⟩
        · exact .inr ⟨hh (.inr h), hg⟩
      · refine (obj_grow (k r) (hf.2 r) hi1 hok1 hg).mono ?_ fun _ => hh (.inl h)
        exact fun r w' hg => .inr ⟨hh (.inl h), .inl hg⟩
theorem mem_ends : (f : MemC) → FineMem f → ∀ {c : Core} {w : Written}, WInv wst c w → WOk wst w → w.CanAdd wst →
    Ends wst (mem f) c w (fun r w' => (∃ v, MemWrites f v (.ok ()) ∧ r = .ok true ∧ w' = w.add v) ∨ (r = .ok false ∧ MemWrites f .null (.ok ()) ∧ w' = w) ∨
      (∃ e v, r = .error e ∧ ¬ HonestMem f ∧ MemWrites f v (.error e) ∧ w' = w.add v) ∨
      (¬ HonestMem f ∧ (w' = w ∧ (∃ e, r = .error e) ∨ Grow (w.frames.length + 1) w'))) (¬ HonestMem f)
  | .ret (.ok ()), _, _, _, hi, hok, _ => by
    unfold mem
    exact ends_pure _ hi hok (.inr (.inl ⟨rfl, .nothing, rfl⟩))
  | .ret (.error e), _, _, _, hi, hok, _ => by
    unfold mem
    exact ends_ofExcept (.error e) hi hok (.inr (.inr (.inr ⟨by rw [HonestMem]; nofun, .inl ⟨rfl, e, rfl⟩⟩)))
  | .value o k, hf, _, _, hi, hok, hc => by
    unfold mem
    have hh : ¬ Honest o → ¬ HonestMem (.value o k) := by
      rw [HonestMem]
      exact fun h h' => h h'.1
    refine (value_ends o (by rw [FineMem] at hf; exact hf) hi hok hc).attempt (fun r => ((stick_ofExcept _).bind fun _ => stick_pure _).stops) hh ?_
    rintro r c1 w1 hi1 hok1 (⟨rfl, v, hw, rfl⟩ | ⟨h, hg⟩)
    · have hm := MemWrites.value (k := k) hw
      generalize hr : k (.ok ()) = r at *
      cases r with
      | ok a => exact ends_pure _ hi1 hok1 (.inl ⟨v, hm, rfl, rfl⟩)
      | error e =>
        refine ends_ofExcept (.error e) hi1 hok1 (.inr (.inr (.inl ⟨e, v, rfl, ?_, hm, rfl⟩)))
        rw [HonestMem, hr]
        exact fun h => nomatch h.2
    · generalize k r = r
      cases r with
      | ok a => exact ends_pure _ hi1 hok1 (.inr (.inr (.inr ⟨hh h, .inr hg⟩)))
      | error e => exact ends_ofExcept (.error e) hi1 hok1 (.inr (.inr (.inr ⟨hh h, .inr hg⟩)))
end

end Verif.SimpleWriter
