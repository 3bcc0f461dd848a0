import Verif.Proofs.Debug
import Verif.Proofs.DebugRun
import Verif.Proofs.Abs.Complete
import Verif.Proofs.Writer.Exec
/-!
# What the writer emits is valid UTF-8
-/

namespace Verif.Writer

open WSpec Json Utf8

theorem valid_nil : ValidUtf8 [] := ⟨[], rfl⟩
theorem valid_enc (t : Text) : ValidUtf8 (enc t) := ⟨t, rfl⟩

theorem valid_append {a b : Bytes} (ha : ValidUtf8 a) (hb : ValidUtf8 b) : ValidUtf8 (a ++ b) := by
  obtain ⟨s, rfl⟩ := ha
  obtain ⟨t, rfl⟩ := hb
  exact ⟨s ++ t, (enc_append s t).symm⟩

theorem valid_byte {b : UInt8} (h : b.toNat < 0x80) : ValidUtf8 [b] :=
  ⟨[Char.ofNat b.toNat], by rw [enc_cons, enc_of_shape1 h]; rfl⟩

theorem valid_cons {b : UInt8} {bs : Bytes} (h : b.toNat < 0x80) (hb : ValidUtf8 bs) : ValidUtf8 (b :: bs) := valid_append (valid_byte h) hb

theorem valid_flatMap {α : Type} {f : α → Bytes} {l : List α} (h : ∀ a ∈ l, ValidUtf8 (f a)) : ValidUtf8 (l.flatMap f) := by
  induction l with
  | nil => exact valid_nil
  | cons a l ih =>
    rw [List.flatMap_cons]
    exact valid_append (h a List.mem_cons_self) (ih fun b hb => h b (List.mem_cons_of_mem _ hb))

theorem hexDigit_lt (n : Nat) (h : n < 16) : (hexDigit n).toNat < 0x80 := by
  have : ∀ n : Fin 16, (hexDigit n.1).toNat < 0x80 := by decide +kernel
  exact this ⟨n, h⟩

theorem valid_hex4 (n : Nat) : ValidUtf8 (hex4 n).bytes :=
  valid_cons (hexDigit_lt _ (Nat.mod_lt _ (by decide))) (valid_cons (hexDigit_lt _ (Nat.mod_lt _ (by decide)))
    (valid_cons (hexDigit_lt _ (Nat.mod_lt _ (by decide))) (valid_byte (hexDigit_lt _ (Nat.mod_lt _ (by decide))))))

theorem valid_short {b : UInt8} (h : b.toNat < 0x80) : ValidUtf8 (StrItem.short b).bytes := valid_cons (by decide) (valid_byte h)

theorem valid_escape (c : Char) : ValidUtf8 (escape c).bytes := by
  unfold escape
  iterate 7 (split; · exact valid_short (by decide))
  split
  · exact valid_cons (by decide) (valid_cons (by decide) (valid_hex4 _))
  · exact valid_append (valid_append (valid_append (valid_cons (by decide) (valid_byte (by decide))) (valid_hex4 _)) (valid_cons (by decide) (valid_byte (by decide)))) (valid_hex4 _)

theorem valid_body (st : WSettings) (t : Text) : ValidUtf8 (strLit st t).body := by
  unfold Str.body strLit
  dsimp only
  rw [List.flatMap_map]
  refine valid_flatMap fun c _ => ?_
  unfold item
  split
  · exact valid_escape c
  · exact ⟨[c], by rw [enc_cons]; simp [StrItem.bytes]⟩

theorem valid_str (st : WSettings) (t : Text) : ValidUtf8 (strLit st t).bytes :=
  valid_cons (by decide) (valid_append (valid_body st t) (valid_byte (by decide)))

theorem valid_gap (st : WSettings) (n : Nat) : ValidUtf8 (gap st n).bytes := by
  unfold gap
  split
  · refine valid_flatMap fun a ha => ?_
    rcases List.mem_cons.1 ha with rfl | ha
    · exact valid_byte (by decide)
    · rw [List.eq_of_mem_replicate ha]; exact valid_byte (by decide)
  · exact valid_nil

theorem valid_sep (st : WSettings) (n : Nat) (first : Bool) : ValidUtf8 (sep st n first).bytes := by
  unfold sep
  split
  · exact valid_gap ..
  · exact valid_cons (by decide) (valid_gap ..)

theorem valid_close (st : WSettings) (n : Nat) (first : Bool) : ValidUtf8 (close st n first).bytes := by
  unfold close
  cases first
  · exact valid_gap ..
  · exact valid_nil

theorem valid_colonWs (st : WSettings) : ValidUtf8 (colonWs st).bytes := by
  unfold colonWs
  split
  · exact valid_byte (by decide)
  · exact valid_nil

mutual
theorem valid_cst (st : WSettings) (n : Nat) : ∀ v : JVal, ValidUtf8 (cst st n v).bytes
  | .null => by rw [cst]; exact valid_cons (by decide) (valid_cons (by decide) (valid_cons (by decide) (valid_byte (by decide))))
  | .bool b => by
    rw [cst]
    cases b
    · exact valid_cons (by decide) (valid_cons (by decide) (valid_cons (by decide) (valid_cons (by decide) (valid_byte (by decide)))))
    · exact valid_cons (by decide) (valid_cons (by decide) (valid_cons (by decide) (valid_byte (by decide))))
  | .num t => by rw [cst, Cst.bytes]; exact valid_enc t
  | .str t => by rw [cst, Cst.bytes]; exact valid_str st t
  | .arr vs => by rw [cst, Cst.bytes]; exact valid_cons (by decide) (valid_items st n true vs)
  | .obj ms => by rw [cst, Cst.bytes]; exact valid_cons (by decide) (valid_members st n true ms)
theorem valid_items (st : WSettings) (n : Nat) (first : Bool) : ∀ vs : List JVal, ValidUtf8 (items st n first vs).bytes
  | [] => by rw [items, Items.bytes]; exact valid_append (valid_close ..) (valid_byte (by decide))
  | v :: vs => by rw [items, Items.bytes]; exact valid_append (valid_sep ..) (valid_append (valid_cst st (n + 1) v) (valid_items st n false vs))
theorem valid_members (st : WSettings) (n : Nat) (first : Bool) : ∀ ms : List (Text × JVal), ValidUtf8 (members st n first ms).bytes
  | [] => by rw [members, Members.bytes]; exact valid_append (valid_close ..) (valid_byte (by decide))
  | (name, v) :: ms => by
    rw [members, Members.bytes]
    exact valid_append (valid_sep ..) (valid_append (valid_str ..) (valid_append valid_nil (valid_cons (by decide) (valid_append (valid_colonWs st)
      (valid_append (valid_cst st (n + 1) v) (valid_members st n false ms))))))
end

theorem valid_openItems (st : WSettings) (n : Nat) (first : Bool) (vs : List JVal) : ValidUtf8 (openItems st n first vs) := by
  induction vs generalizing first with
  | nil => exact valid_nil
  | cons v vs ih => exact valid_append (valid_sep ..) (valid_append (valid_cst ..) (ih _))

theorem valid_openMembers (st : WSettings) (n : Nat) (first : Bool) (ms : List (Text × JVal)) : ValidUtf8 (openMembers st n first ms) := by
  induction ms generalizing first with
  | nil => exact valid_nil
  | cons m ms ih =>
    exact valid_append (valid_sep ..) (valid_append (valid_str ..) (valid_cons (by decide) (valid_append (valid_colonWs st) (valid_append (valid_cst ..) (ih _)))))

theorem valid_frame (st : WSettings) (n : Nat) (f : Frame) : ValidUtf8 (f.bytes st n) := by
  match f with
  | .arr vs => exact valid_cons (by decide) (valid_openItems ..)
  | .obj ms none => exact valid_cons (by decide) (valid_openMembers ..)
  | .obj ms (some name) =>
    exact valid_cons (by decide) (valid_append (valid_openMembers ..) (valid_append (valid_sep ..) (valid_append (valid_str ..) (valid_cons (by decide) (valid_colonWs st)))))

theorem valid_lead (st : WSettings) (tops : List JVal) (fs : List Frame) : ValidUtf8 (lead st tops fs) := by
  match fs with
  | [] =>
    rw [lead]
    split
    · exact valid_nil
    · exact valid_enc _
  | .arr vs :: fs => exact valid_sep ..
  | .obj _ _ :: _ => exact valid_nil

theorem valid_frames (st : WSettings) (tops : List JVal) (fs : List Frame) : ValidUtf8 (framesBytes st tops fs) := by
  induction fs with
  | nil =>
    cases tops with
    | nil => exact valid_nil
    | cons v vs => exact valid_append (valid_cst ..) (valid_flatMap fun v _ => valid_append (valid_enc _) (valid_cst ..))
  | cons f fs ih => exact valid_append ih (valid_append (valid_lead ..) (valid_frame ..))

/-- everything the writer emits is valid UTF-8 -/
theorem valid_written (st : WSettings) (w : Written) : ValidUtf8 (w.bytes st) := by
  unfold Written.bytes
  refine valid_append (valid_frames ..) ?_
  split
  · exact valid_nil
  · exact valid_append (valid_lead ..) (valid_cons (by decide) (valid_body ..))

/-! ## The first byte -/

/-- there is a first byte, and it is ASCII -/
def AsciiStart (bs : Bytes) : Prop := ∃ b r, bs = b :: r ∧ b.toNat < 0x80

theorem AsciiStart.append {bs : Bytes} (h : AsciiStart bs) (r : Bytes) : AsciiStart (bs ++ r) := by
  obtain ⟨b, s, rfl, hb⟩ := h
  exact ⟨b, s ++ r, rfl, hb⟩

theorem start_cst (st : WSettings) (n : Nat) {v : JVal} (hv : JOk v) : AsciiStart (cst st n v).bytes := by
  cases v with
  | null => rw [cst]; exact ⟨_, _, rfl, by decide⟩
  | bool b => rw [cst]; cases b <;> exact ⟨_, _, rfl, by decide⟩
  | num t =>
    rw [cst, Cst.bytes]
    obtain ⟨b, r, h, hb⟩ := Abs.isNumber_start hv
    refine ⟨b, r, h, ?_⟩
    rcases hb with rfl | hb
    · decide
    · omega
  | str t => rw [cst]; exact ⟨_, _, rfl, by decide⟩
  | arr vs => rw [cst]; exact ⟨_, _, rfl, by decide⟩
  | obj ms => rw [cst]; exact ⟨_, _, rfl, by decide⟩

theorem start_frame (st : WSettings) (n : Nat) (f : Frame) : AsciiStart (f.bytes st n) := by
  match f with
  | .arr vs => exact ⟨_, _, rfl, by decide⟩
  | .obj ms none => exact ⟨_, _, rfl, by decide⟩
  | .obj ms (some name) => exact ⟨_, _, rfl, by decide⟩

theorem start_tops (st : WSettings) {v : JVal} {vs : List JVal} (h : JOks (v :: vs)) : AsciiStart (topsBytes st (v :: vs)) := (start_cst st 0 h.1).append _

theorem start_frames (st : WSettings) {tops : List JVal} (ht : JOks tops) (fs : List Frame) (h : tops ≠ [] ∨ fs ≠ []) : AsciiStart (framesBytes st tops fs) := by
  induction fs with
  | nil =>
    match tops, ht, h with
    | v :: vs, ht, _ => exact start_tops st ht
    | [], _, .inl h => exact absurd rfl h
    | [], _, .inr h => exact absurd rfl h
  | cons f fs ih =>
    by_cases h' : tops ≠ [] ∨ fs ≠ []
    · exact (ih h').append _
    · have h1 : tops = [] := Classical.not_not.1 fun h => h' (.inl h)
      have h2 : fs = [] := Classical.not_not.1 fun h => h' (.inr h)
      subst h1 h2
      exact start_frame st 0 f

theorem start_written (st : WSettings) {w : Written} (h : WOk st w) : w.bytes st = [] ∨ AsciiStart (w.bytes st) := by
  obtain ⟨tops, fs, str⟩ := w
  unfold Written.bytes
  by_cases h' : tops ≠ [] ∨ fs ≠ []
  · exact .inr ((start_frames st h.tops fs h').append _)
  · have h1 : tops = [] := Classical.not_not.1 fun h => h' (.inl h)
    have h2 : fs = [] := Classical.not_not.1 fun h => h' (.inr h)
    subst h1 h2
    cases str with
    | none => exact .inl rfl
    | some t => exact .inr ⟨_, _, rfl, by decide⟩

/-! ## Parts of valid UTF-8 -/

theorem encodeChar_length_le (c : Char) : (String.utf8EncodeChar c).length ≤ 4 := by
  cases h : String.utf8EncodeChar c with
  | nil => simp
  | cons b bs => have := encShape c; rw [h] at this; cases this <;> simp

theorem prefix_valid {p : Bytes} {t : Text} (h : p <+: enc t) : ∃ t' r, t' <+: t ∧ p = enc t' ++ r ∧ (r = [] ∨ ∃ c s, s ≠ [] ∧ enc [c] = r ++ s) ∧ r.length ≤ 3 := by
  induction t generalizing p with
  | nil => exact ⟨[], [], List.prefix_refl _, List.prefix_nil.1 h, .inl rfl, by simp⟩
  | cons c t ih =>
    obtain ⟨q, hq⟩ := h
    rw [enc_cons] at hq
    rcases List.append_eq_append_iff.1 hq with ⟨x, h1, h2⟩ | ⟨x, h1, h2⟩
    · cases x with
      | nil =>
        rw [List.append_nil] at h1
        exact ⟨[c], [], ⟨t, rfl⟩, by rw [enc_cons, h1]; simp, .inl rfl, by simp⟩
      | cons b x =>
        refine ⟨[], p, List.nil_prefix, rfl, .inr ⟨c, b :: x, by simp, by rw [enc_cons, enc_nil, List.append_nil, h1]⟩, ?_⟩
        have := encodeChar_length_le c
        rw [h1, List.length_append, List.length_cons] at this
        omega
    · obtain ⟨t', r, h3, h4, h5, h6⟩ := ih ⟨q, h2.symm⟩
      refine ⟨c :: t', r, ?_, ?_, h5, h6⟩
      · obtain ⟨u, rfl⟩ := h3; exact ⟨u, rfl⟩
      · rw [h1, h4, enc_cons, List.append_assoc]

theorem suffix_valid {s : Bytes} {t : Text} (h : s <:+ enc t) : ∃ r t', s = r ++ enc t' ∧ r.length ≤ 3 := by
  induction t with
  | nil => exact ⟨[], [], List.suffix_nil.1 h, by simp⟩
  | cons c t ih =>
    obtain ⟨q, hq⟩ := h
    rw [enc_cons] at hq
    rcases List.append_eq_append_iff.1 hq with ⟨x, h1, h2⟩ | ⟨x, h1, h2⟩
    · cases q with
      | nil => exact ⟨[], c :: t, by simpa using hq, by simp⟩
      | cons b q =>
        refine ⟨x, t, h2, ?_⟩
        have := encodeChar_length_le c
        rw [h1, List.length_append, List.length_cons] at this
        omega
    · exact ih ⟨x, h2.symm⟩

/-! ## The buffer -/

theorem buffersAll_out {st : WSettings} (out0 : Bytes) : ∀ (ops : List WOp) {c : Core} {w : Written} {k : BufSink}, (∀ op ∈ ops, OpOk op) → WInv st c w → WOk st w →
    k.Good → k.sink.Reliable → k.out = out0 ++ w.bytes st → ∀ b ∈ Debug.buffersAll ops c k, ∃ w', b.out = out0 ++ Written.bytes st w' := by
  intro ops
  induction ops with
  | nil =>
    intro c w k _ _ _ _ _ h b hb
    cases List.mem_singleton.1 hb
    exact ⟨w, h⟩
  | cons o os ih =>
    intro c w k hop hi hok hg hr ho b hb
    unfold Debug.buffersAll at hb
    rcases List.mem_cons.1 hb with rfl | hb
    · exact ⟨w, ho⟩
    · rcases run_spec (quiet_wop o c) hg with ⟨e1, e2, e3, e4, -⟩ | ⟨hn, -⟩
      · cases h : ((Writer.wop o).run c).run.run k with
        | err p k' => rw [h] at hb; cases hb
        | ok a k' =>
          rw [h] at hb e1 e2 e3 e4
          dsimp only at hb
          split at hb
          · cases hb
          · cases wop_outcome hi hok o (hop o List.mem_cons_self) with
            | done w' out bs c' s1 s2 s3 s4 _ _ =>
              unfold Emits at s2
              rw [s2] at e1 e3
              cases e1
              refine ih (fun op h => hop op (List.mem_cons_of_mem _ h)) s4 (hok.step s1) e2 (e4 hr) ?_ b hb
              rw [s3, ← List.append_assoc, ← ho]; exact e3
            | rejected _ s2 =>
              unfold Errs at s2
              rw [s2] at e1 e3
              cases e1
              refine ih (fun op h => hop op (List.mem_cons_of_mem _ h)) hi hok e2 (e4 hr) ?_ b hb
              rw [← ho]; exact e3.trans (List.append_nil _)
            | panic u s2 _ =>
              unfold Panics at s2
              rw [s2] at e1
              cases e1
      · exact absurd hr hn

end Verif.Writer
