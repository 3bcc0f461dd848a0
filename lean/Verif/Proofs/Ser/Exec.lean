import Verif.Proofs.Ser.Value
import Verif.Proofs.Transfer.Exec
/-!
# Programs which use the serializer
-/

namespace Verif.Ser
open Writer Json SerSpec
open WSpec (Written Steps JOk)
open Transfer (callFailed bad_failed)

variable {wst : WSettings} {α β : Type}

theorem json_ok {v : SVal} {j : JVal} (h : Ok v) (hj : json v = .ok j) : JOk j := by
  have h1 := serialize_ends (wst := .default) v h (w := .empty) ⟨rfl, .inl rfl⟩
  rw [hj] at h1
  obtain ⟨_, _, _, _, _, h2⟩ := h1 _ (WInv.new .default) (WOk.empty .default)
  exact h2.tops.1

/-! ## IO errors of the writer -/

/-- After a failed call of `write_bytes` or `flush` there are no further calls, and an error is returned -/
def Calm (m : S α) : Prop := ∀ x, (m.run x).Quiet (fun _ => True) fun r => ∃ e, r.1 = .error (.io e) ∧ e.isIo = true

theorem Calm.bind {m : S α} {f : α → S β} (h : Calm m) (hf : ∀ a, Calm (f a)) : Calm (m >>= f) := by
  intro x
  rw [T.run_bind]
  refine (h x).bind ?_ ?_
  · rintro ⟨_ | a, x'⟩ -
    · trivial
    · exact hf a x'
  · rintro ⟨_ | a, x'⟩ ⟨e, h1, h2⟩
    · cases h1; exact ⟨_, rfl, h2⟩
    · cases h1

theorem calm_pure {a : α} : Calm (pure a : S α) := fun _ => trivial
theorem calm_fail {e : SerErr} : Calm (T.fail e : S α) := fun _ => trivial
theorem calm_usage {u : WUsage} : Calm (T.usage u : S α) := fun _ => trivial

theorem convertErr_io {e : WErr} (h : e.isIo = true) : convertErr e = .io e := by
  cases e <;> first | rfl | cases h

theorem calm_onWriter {m : W α} (h : ∀ c, (m.run c).Quiet (fun _ => True) fun r => ∃ e, r.1 = .error e ∧ e.isIo = true) : Calm (onWriter m) := by
  intro c
  unfold onWriter
  dsimp only
  refine (h c).bind ?_ ?_
  · rintro ⟨_ | a, c'⟩ - <;> trivial
  · rintro ⟨_ | a, c'⟩ ⟨e, h1, h2⟩
    · cases h1; exact ⟨_, congrArg _ (convertErr_io h2), h2⟩
    · cases h1

theorem calm_w {m : W α} (h : Writer.Calm m) : Calm (onWriter m) :=
  calm_onWriter fun c => (h c).mono (fun _ _ => trivial) fun _ h => h.1

theorem calm_name {n : Text} : Calm (onWriter (Writer.name n)) := calm_w Writer.calm_name

theorem calm_useInt {n : FinNum} : Calm (finiteNumberKey n) := by
  unfold finiteNumberKey FinNum.useJsonNumber
  cases n with
  | int t i =>
    dsimp only
    split
    · exact calm_name
    · exact fun _ => trivial
  | transferred t => exact calm_name

theorem calm_useFp {n : FpNum} : Calm (fpNumberKey n) := by
  unfold fpNumberKey FpNum.useJsonNumber
  split
  · split
    · exact calm_name
    · exact fun _ => trivial
  · exact fun _ => trivial

theorem calm_key : (k : SVal) → Calm (serializeKey k)
  | .bool _ => calm_name
  | .int _ _ => calm_useInt
  | .float _ => calm_useFp
  | .char _ => calm_name
  | .str _ => calm_name
  | .some v => by rw [serializeKey]; exact calm_key v
  | .unitVariant _ => calm_name
  | .newtypeStruct v => by rw [serializeKey]; exact calm_key v
  | .bytes _ => calm_fail
  | .none => calm_fail
  | .unit => calm_fail
  | .unitStruct => calm_fail
  | .newtypeVariant _ _ => calm_fail
  | .seq _ _ => calm_fail
  | .tuple _ _ => calm_fail
  | .tupleStruct _ _ => calm_fail
  | .tupleVariant _ _ _ => calm_fail
  | .map _ _ => calm_fail
  | .struct _ _ => calm_fail
  | .structVariant _ _ _ => calm_fail
  | .custom _ => calm_fail

theorem calm_bytes (bs : Bytes) : Calm (serializeByteLoop bs) := by
  induction bs with
  | nil => exact calm_pure
  | cons b bs ih => rw [serializeByteLoop]; exact (calm_w calm_numberValue).bind fun _ => ih

theorem calm_checkEnd {n len : Nat} : Calm (checkEnd n len) := by
  unfold checkEnd
  split
  · exact calm_fail
  · exact calm_pure

mutual
theorem calm_serialize : (v : SVal) → Calm (serialize v)
  | .bool _ => calm_w calm_boolValue
  | .int _ _ => calm_w calm_numberValue
  | .float _ => calm_w calm_fpNumberValue
  | .char _ => calm_w calm_stringValue
  | .str _ => calm_w calm_stringValue
  | .bytes bs => by rw [serialize]; exact (calm_w calm_beginArray).bind fun _ => (calm_bytes bs).bind fun _ => calm_w calm_endArray
  | .none => calm_w calm_nullValue
  | .some v => by rw [serialize]; exact calm_serialize v
  | .unit => calm_w calm_nullValue
  | .unitStruct => calm_w calm_nullValue
  | .unitVariant _ => calm_w calm_stringValue
  | .newtypeStruct v => by rw [serialize]; exact calm_serialize v
  | .newtypeVariant _ v => by
    rw [serialize]
    exact (calm_w calm_beginObject).bind fun _ => calm_name.bind fun _ => (calm_serialize v).bind fun _ => calm_w calm_endObject
  | .seq len vs => by rw [serialize]; exact (calm_w calm_beginArray).bind fun _ => calm_seq len 0 vs
  | .tuple len vs => by rw [serialize]; exact (calm_w calm_beginArray).bind fun _ => (calm_elements len 0 vs).bind fun _ => calm_w calm_endArray
  | .tupleStruct len vs => by rw [serialize]; exact (calm_w calm_beginArray).bind fun _ => (calm_elements len 0 vs).bind fun _ => calm_w calm_endArray
  | .tupleVariant _ len vs => by
    rw [serialize]
    exact (calm_w calm_beginObject).bind fun _ => calm_name.bind fun _ => (calm_w calm_beginArray).bind fun _ => (calm_elements len 0 vs).bind fun _ =>
      (calm_w calm_endArray).bind fun _ => calm_w calm_endObject
  | .map len ops => by rw [serialize]; exact (calm_w calm_beginObject).bind fun _ => calm_map len 0 false ops
  | .struct len fs => by rw [serialize]; exact (calm_w calm_beginObject).bind fun _ => (calm_fields len 0 fs).bind fun _ => calm_w calm_endObject
  | .structVariant _ len fs => by
    rw [serialize]
    exact (calm_w calm_beginObject).bind fun _ => calm_name.bind fun _ => (calm_w calm_beginObject).bind fun _ => (calm_fields len 0 fs).bind fun _ =>
      (calm_w calm_endObject).bind fun _ => calm_w calm_endObject
  | .custom _ => calm_fail
theorem calm_seq (o : Option Nat) (len : Nat) : (vs : List SVal) → Calm (serializeSeq o len vs)
  | [] => by
    cases o with
    | none => rw [serializeSeq]; exact calm_w calm_endArray
    | some n => rw [serializeSeq]; exact calm_checkEnd.bind fun _ => calm_w calm_endArray
  | v :: vs => by
    cases o with
    | none => rw [serializeSeq]; exact (calm_serialize v).bind fun _ => calm_seq none len vs
    | some n =>
      rw [serializeSeq]
      split
      · exact calm_fail
      · exact (calm_serialize v).bind fun _ => calm_seq (some n) (len + 1) vs
theorem calm_elements (n len : Nat) : (vs : List SVal) → Calm (serializeElements n len vs)
  | [] => by rw [serializeElements]; exact calm_checkEnd
  | v :: vs => by
    rw [serializeElements]
    split
    · exact calm_fail
    · exact (calm_serialize v).bind fun _ => calm_elements n (len + 1) vs
theorem calm_map (o : Option Nat) (len : Nat) (b : Bool) : (ops : List MapOp) → Calm (serializeMap o len b ops)
  | [] => by
    rw [serializeMap]
    split
    · exact calm_usage
    · cases o with
      | none => exact calm_w calm_endObject
      | some n => exact calm_checkEnd.bind fun _ => calm_w calm_endObject
  | .key k :: ops => by
    cases o with
    | none =>
      rw [serializeMap]
      split
      · exact calm_usage
      · exact (calm_key k).bind fun _ => calm_map none len true ops
    | some n =>
      rw [serializeMap]
      split
      · exact calm_usage
      · split
        · exact calm_fail
        · exact (calm_key k).bind fun _ => calm_map (some n) (len + 1) true ops
  | .value v :: ops => by
    rw [serializeMap]
    split
    · exact calm_usage
    · exact (calm_serialize v).bind fun _ => calm_map o len false ops
theorem calm_fields (n len : Nat) : (fs : List (Text × SVal)) → Calm (serializeFields n len fs)
  | [] => by rw [serializeFields]; exact calm_checkEnd
  | (_, v) :: fs => by
    rw [serializeFields]
    split
    · exact calm_fail
    · exact calm_name.bind fun _ => (calm_serialize v).bind fun _ => calm_fields n (len + 1) fs
end

/-- A failure of the underlying `Write` is visible in the results -/
def Shown (t : SerOut) : Prop := (Reported t.pre ∧ t.ser = none) ∨ (∃ e, t.ser = some (.error (.io e)) ∧ e.isIo = true) ∨ Reported t.post

theorem quiet_serOps (wpre wpost : List WOp) (v : SVal) (c : Core) : ((serOps wpre v wpost).run c).QuietB (HasString wpre ∨ HasString wpost) (fun _ => True) fun r => ∃ t, r.1 = .ok t ∧ Shown t := by
  unfold serOps
  rw [T.run_bind]
  refine ((quiet_wops wpre c).imp .inl).bind ?_ ?_
  · rintro ⟨e | pre, c'⟩ -
    · nomatch e
    · dsimp only
      split
      · trivial
      · rw [T.run_bind]
        refine Tree.QuietB.bind (P := fun _ => True) (E := fun r => ∃ e, r.1 = .ok (.error (.io e)) ∧ e.isIo = true) ?_ ?_ ?_
        · refine ((calm_serialize v c').imp False.elim).bind ?_ ?_
          · rintro ⟨r, c''⟩ -
            trivial
          · rintro ⟨r, c''⟩ ⟨e, h1, h2⟩
            dsimp only at h1
            subst h1
            exact ⟨_, rfl, h2⟩
        · rintro ⟨e | r, c''⟩ -
          · nomatch e
          · dsimp only
            cases r with
            | error => trivial
            | ok =>
              dsimp only
              rw [T.run_bind]
              refine ((quiet_wops wpost c'').imp .inr).bind ?_ ?_
              · rintro ⟨e | post, c'⟩ -
                · nomatch e
                · trivial
              · rintro ⟨e | post, c'⟩ ⟨rs, h1, h2⟩
                · nomatch e
                · cases h1
                  exact ⟨_, rfl, .inr (.inr h2)⟩
        · rintro ⟨e | r, c''⟩ ⟨e', h1, h2⟩
          · nomatch e
          · cases h1
            exact ⟨_, rfl, .inr (.inl ⟨_, rfl, h2⟩)⟩
  · rintro ⟨e | pre, c'⟩ ⟨rs, h1, h2⟩
    · nomatch e
    · cases h1
      dsimp only
      have h2' := h2
      obtain ⟨a, r, b, rfl, hb, _⟩ := h2
      rw [if_pos (List.any_eq_true.2 ⟨r, by simp, bad_failed hb⟩)]
      exact ⟨_, rfl, .inl ⟨h2', rfl⟩⟩

/-! ## If the underlying `Write` does not fail -/

section
variable {wpre : List WOp} {r1 : List (Except WErr WOut)} {b1 b2 : Bytes} {c1 c2 : Core} {v : SVal}

theorem serOps_ideal (wpost : List WOp) (h1 : Emits (wops wpre) (Core.new wst) b1 r1 c1) (hr : r1.any callFailed = false) (h2 : Emits (serialize v) c1 b2 () c2) :
    ((serOps wpre v wpost).run (Core.new wst)).ideal = (match ((wops wpost).run c2).ideal with
      | (.ok (.ok r3, c3), b3) => (.ok (.ok ⟨r1, some (.ok ()), r3⟩, c3), b1 ++ (b2 ++ b3))
      | (.ok (.error e, _), _) => nomatch e
      | (.error p, b3) => (.error p, b1 ++ (b2 ++ b3))) ∧
    ∀ b, (∀ b, ((wops wpost).run c2).flushed b = true) → ((serOps wpre v wpost).run (Core.new wst)).flushed b = true := by
  unfold Emits at h1 h2
  have h3 : (((serializeValue v).run c1).bind fun (r, c') => (.ret (.ok r, c') : Tree (Except Empty (Except SerErr Unit) × Core))).ideal = (.ok (.ok (.ok ()), c2), b2) := by
    unfold serializeValue
    rw [ideal_bind, h2]
    simp [Tree.ideal]
  constructor
  · unfold serOps
    rw [T.run_bind, ideal_bind, h1]
    dsimp only
    rw [hr, if_neg (by exact Bool.false_ne_true), T.run_bind, ideal_bind, h3]
    dsimp only
    rw [T.run_bind, ideal_bind]
    rcases ((wops wpost).run c2).ideal with ⟨p | ⟨e | r3, c3⟩, b3⟩
    · rfl
    · nomatch e
    · show (_, b1 ++ (b2 ++ (b3 ++ []))) = _
      rw [List.append_nil]
      rfl
  · intro b hb
    unfold serOps
    rw [T.run_bind, flushed_bind, h1]
    dsimp only
    rw [hr, if_neg (by exact Bool.false_ne_true), T.run_bind, flushed_bind, h3]
    dsimp only
    rw [T.run_bind, flushed_bind]
    split
    · rename_i x hx
      rcases x with ⟨e | r3, c3⟩
      · nomatch e
      · exact hb _
    · exact hb _

theorem serOps_fails (wpost : List WOp) {e : SerErr} (h1 : Emits (wops wpre) (Core.new wst) b1 r1 c1) (hr : r1.any callFailed = false) (h2 : Errs (serialize v) c1 b2 e c2) :
    ((serOps wpre v wpost).run (Core.new wst)).ideal = (.ok (.ok ⟨r1, some (.error e), []⟩, c2), b1 ++ b2) := by
  unfold Emits at h1
  unfold Errs at h2
  have h3 : (((serializeValue v).run c1).bind fun (r, c') => (.ret (.ok r, c') : Tree (Except Empty (Except SerErr Unit) × Core))).ideal = (.ok (.ok (.error e), c2), b2) := by
    unfold serializeValue
    rw [ideal_bind, h2]
    simp [Tree.ideal]
  unfold serOps
  rw [T.run_bind, ideal_bind, h1]
  dsimp only
  rw [hr, if_neg (by exact Bool.false_ne_true), T.run_bind, ideal_bind, h3]
  dsimp only
  show (_, b1 ++ (b2 ++ [])) = _
  rw [List.append_nil]
  rfl

end

end Verif.Ser
