import Verif.Proofs.Transfer.Exec
import Verif.Proofs.Abs.Read
import Verif.Proofs.Abs.Calls
import Verif.Proofs.Abs.Token
/-!
# `transfer_to` on arbitrary input

The calls of the reader are described by the invariant of the reader (`Verif.Abs.At`), those of the writer by what has been written (`WInv`). Both are combined in
`XWp`, which describes either the computation for which all calls of the underlying `Write` are successful, or (`dev`) all computations; in the latter case the
state of the writer is arbitrary, and nothing is claimed about it.
-/

namespace Verif.Writer

variable {β γ : Type}

/-- All results satisfy `P`, together with the bytes emitted before (`acc`) and by the computation. `dev`: also those after failed calls, and panics are possible;
otherwise only the result after successful calls, and there is no panic. -/
def Tree.Walk (dev : Prop) (P : β → Bytes → Prop) : Bytes → Tree β → Prop
  | acc, .ret b => P b acc
  | _, .panic _ => dev
  | acc, .emit bs k => Tree.Walk dev P (acc ++ bs) (k (.ok ())) ∧ (dev → ∀ e, Tree.Walk dev P (acc ++ bs) (k (.error e)))
  | acc, .flush k => Tree.Walk dev P acc (k (.ok ())) ∧ (dev → ∀ e, Tree.Walk dev P acc (k (.error e)))

theorem Tree.Walk.bind {dev : Prop} {P : β → Bytes → Prop} {Q : γ → Bytes → Prop} {f : β → Tree γ} : ∀ {t : Tree β} {acc : Bytes}, t.Walk dev P acc → (∀ b x, P b x → (f b).Walk dev Q x) →
    (t.bind f).Walk dev Q acc
  | .ret _, _, h, hf => hf _ _ h
  | .panic _, _, h, _ => h
  | .emit _ _, _, h, hf => ⟨h.1.bind hf, fun hd e => (h.2 hd e).bind hf⟩
  | .flush _, _, h, hf => ⟨h.1.bind hf, fun hd e => (h.2 hd e).bind hf⟩

theorem Tree.Walk.mono {dev : Prop} {P Q : β → Bytes → Prop} (hP : ∀ b x, P b x → Q b x) : ∀ {t : Tree β} {acc : Bytes}, t.Walk dev P acc → t.Walk dev Q acc
  | .ret _, _, h => hP _ _ h
  | .panic _, _, h => h
  | .emit _ _, _, h => ⟨h.1.mono hP, fun hd e => (h.2 hd e).mono hP⟩
  | .flush _, _, h => ⟨h.1.mono hP, fun hd e => (h.2 hd e).mono hP⟩

theorem Tree.Walk.any {dev : Prop} (hd : dev) : ∀ (t : Tree β) (acc : Bytes), t.Walk dev (fun _ _ => True) acc
  | .ret _, _ => trivial
  | .panic _, _ => hd
  | .emit _ k, _ => ⟨Tree.Walk.any hd (k (.ok ())) _, fun _ e => Tree.Walk.any hd (k (.error e)) _⟩
  | .flush k, _ => ⟨Tree.Walk.any hd (k (.ok ())) _, fun _ e => Tree.Walk.any hd (k (.error e)) _⟩

theorem Tree.Walk.of_ideal {dev : Prop} {P : β → Bytes → Prop} (hd : ¬ dev) : ∀ {t : Tree β} {acc : Bytes} {b : β} {bs : Bytes}, t.ideal = (.ok b, bs) → P b (acc ++ bs) → t.Walk dev P acc
  | .ret b, acc, _, _, h, hP => by cases h; rw [List.append_nil] at hP; exact hP
  | .panic _, _, _, _, h, _ => by cases h
  | .emit bs k, acc, b, bs', h, hP => by
    refine ⟨Tree.Walk.of_ideal hd (b := b) (bs := (k (.ok ())).ideal.2) ?_ ?_, fun h => absurd h hd⟩
    · exact Prod.ext (by have := congrArg Prod.fst h; exact this) rfl
    · rw [List.append_assoc, show bs ++ (k (.ok ())).ideal.2 = bs' from congrArg Prod.snd h]; exact hP
  | .flush k, acc, b, bs', h, hP => ⟨Tree.Walk.of_ideal hd (by exact h) hP, fun h => absurd h hd⟩

theorem Tree.Walk.ideal {P : β → Bytes → Prop} : ∀ {t : Tree β} {acc : Bytes}, t.Walk False P acc → ∃ b bs, t.ideal = (.ok b, bs) ∧ P b (acc ++ bs)
  | .ret b, acc, h => ⟨b, [], rfl, by rw [List.append_nil]; exact h⟩
  | .panic _, _, h => h.elim
  | .emit bs k, acc, h => by
    obtain ⟨b, bs', h1, h2⟩ := Tree.Walk.ideal h.1
    exact ⟨b, bs ++ bs', by rw [Tree.ideal, h1], by rw [← List.append_assoc]; exact h2⟩
  | .flush k, acc, h => by
    obtain ⟨b, bs', h1, h2⟩ := Tree.Walk.ideal h.1
    exact ⟨b, bs', h1, h2⟩

/-- the results with an arbitrary underlying `Write` -/
theorem Tree.Walk.run {dev : Prop} {P : β → Bytes → Prop} (hd : dev) : ∀ {t : Tree β} {acc : Bytes}, t.Walk dev P acc → ∀ {k : BufSink} {b : β} {k' : BufSink}, t.run.run k = .ok b k' → ∃ x, P b x
  | .ret _, _, h, _, _, _, hr => by cases hr; exact ⟨_, h⟩
  | .panic _, _, _, _, _, _, hr => by cases hr
  | .emit bs f, _, h, k, b, k', hr => by
    simp only [Tree.run] at hr
    revert hr
    rcases (writeBytes bs).run k with ⟨⟨⟩, s'⟩ | ⟨_ | _, s'⟩ <;> intro hr
    · exact Tree.Walk.run hd h.1 hr
    · exact Tree.Walk.run hd (h.2 hd _) hr
    · cases hr
  | .flush f, _, h, k, b, k', hr => by
    simp only [Tree.run] at hr
    revert hr
    rcases Writer.flush.run k with ⟨⟨⟩, s'⟩ | ⟨_ | _, s'⟩ <;> intro hr
    · exact Tree.Walk.run hd h.1 hr
    · exact Tree.Walk.run hd (h.2 hd _) hr
    · cases hr

/-- transfer to a related computation -/
theorem Tree.Walk.relX {dev : Prop} {X : β → Prop} {R : β → γ → Prop} {Q : γ → Bytes → Prop} {Q' : β → Bytes → Prop} (h1 : ∀ a b x, R a b → Q b x → Q' a x) (h2 : ∀ a x, X a → Q' a x) :
    ∀ {t : Tree β} {u : Tree γ} {acc : Bytes}, Tree.RelX X R t u → u.Walk dev Q acc → t.Walk dev Q' acc
  | .ret a, .ret b, x, h, h' => h.elim (h2 a x) fun h => h1 a b x h h'
  | .ret a, .panic _, x, h, _ => h2 a x h
  | .ret a, .emit _ _, x, h, _ => h2 a x h
  | .ret a, .flush _, x, h, _ => h2 a x h
  | .panic _, .panic _, _, _, h' => h'
  | .emit _ _, .emit _ _, _, ⟨rfl, h⟩, h' => ⟨Tree.Walk.relX h1 h2 (h _) h'.1, fun hd e => Tree.Walk.relX h1 h2 (h _) (h'.2 hd e)⟩
  | .flush _, .flush _, _, h, h' => ⟨Tree.Walk.relX h1 h2 (h _) h'.1, fun hd e => Tree.Walk.relX h1 h2 (h _) (h'.2 hd e)⟩

end Verif.Writer

namespace Verif.Transfer
open Reader Writer Json Utf8
open WSpec (Written Step Denotes Rejected strLit lead)
open Abs (St Ctx Lead Pos stp mv mu At Lo EOk VPost CanPeek Readable Restricted Mem InvP InvN InvX NPost mkItems mkMembers DataErr)

variable {dev : Prop} {st : Settings} {wst : WSettings} {inp : Bytes} {g : Prop} {c c0 : Ctx} {w w0 : Written} {s s' : St} {α β : Type}

/-- assertion about the writer and what it has emitted -/
abbrev Asr := Core → Bytes → Prop

/-- what has been written -/
def JW (wst : WSettings) (w : Written) : Asr := fun c x => WInv wst c w ∧ WOk wst w ∧ w.bytes wst = x

/-- the result of a computation of `transfer_to` -/
def Fin (dev : Prop) (Q : α → St → Asr → Prop) (E : RErr → St → Prop) (r : Except TErr α × (St × Core)) (x : Bytes) : Prop := match r.1 with
  | .ok a => ∃ I, Q a r.2.1 I ∧ (dev ∨ I r.2.2 x)
  | .error (.reader e) => E e r.2.1
  | .error (.writer _) => dev

/-- `m` started in `s` ends with `Q` (which contains an assertion for the writer), or with an error of the reader for which `E` holds -/
def XWp (dev : Prop) (m : X AbsSrc α) (s : St) (I : Asr) (Q : α → St → Asr → Prop) (E : RErr → St → Prop) : Prop :=
  ∀ c x, dev ∨ I c x → (m.run (s, c)).Walk dev (Fin dev Q E) x

section rules
variable {I : Asr} {Q Q' : α → St → Asr → Prop} {E E' : RErr → St → Prop}

theorem XWp.mono {m : X AbsSrc α} (h : XWp dev m s I Q E) (hQ : ∀ a s' I', Q a s' I' → Q' a s' I') (hE : ∀ e s', E e s' → E' e s') : XWp dev m s I Q' E' := by
  intro c x hI
  refine (h c x hI).mono ?_
  rintro ⟨r, s', c'⟩ x' h
  match r, h with
  | .ok a, ⟨I, h1, h2⟩ => exact ⟨I, hQ _ _ _ h1, h2⟩
  | .error (.reader e), h => exact hE _ _ h
  | .error (.writer _), h => exact h

theorem XWp.post {m : X AbsSrc α} (h : XWp dev m s I Q E) (hQ : ∀ a s' I', Q a s' I' → Q' a s' I') : XWp dev m s I Q' E := h.mono hQ fun _ _ h => h

theorem XWp.bind {m : X AbsSrc α} {f : α → X AbsSrc β} {P : α → St → Asr → Prop} {Q : β → St → Asr → Prop} (h : XWp dev m s I P E) (hf : ∀ a s' I', P a s' I' → XWp dev (f a) s' I' Q E) :
    XWp dev (m >>= f) s I Q E := by
  intro c x hI
  rw [T.run_bind]
  refine (h c x hI).bind ?_
  rintro ⟨r, s', c'⟩ x' h
  match r, h with
  | .ok a, ⟨I, h1, h2⟩ => exact hf a s' I h1 c' x' h2
  | .error (.reader e), h => exact h
  | .error (.writer _), h => exact h

theorem XWp.pure {a : α} (h : Q a s I) : XWp dev (pure a) s I Q E := fun _ _ hI => ⟨I, h, hI⟩

theorem XWp.get {f : St × Core → X AbsSrc α} (h : ∀ c, XWp dev (f (s, c)) s I Q E) : XWp dev (T.get >>= f) s I Q E := fun c x hI => h c c x hI

theorem XWp.reader {m : R AbsSrc α} {P : α → St → Prop} (h : Wp m s P E) (hQ : ∀ a s', P a s' → Q a s' I) : XWp dev (onReader m) s I Q E := by
  intro c x hI
  unfold onReader
  dsimp only
  unfold Wp at h
  cases hm : m.run s with
  | ok a s' => rw [hm] at h; exact ⟨I, hQ _ _ h, hI⟩
  | err e s' => rw [hm] at h; exact h

/-- a call of the reader in front -/
theorem XWp.rbind {m : R AbsSrc α} {P : α → St → Prop} {f : α → X AbsSrc β} {Q : β → St → Asr → Prop} (h : Wp m s P E) (hf : ∀ a s', P a s' → XWp dev (f a) s' I Q E) :
    XWp dev (onReader m >>= f) s I Q E :=
  XWp.bind (P := fun a s' I' => P a s' ∧ I' = I) (XWp.reader h fun _ _ h => ⟨h, rfl⟩) fun a s' _ ⟨h, e⟩ => e ▸ hf a s' h

/-- a call of the writer with an arbitrary effect on its state -/
theorem XWp.emits {m : W α} {P : α → Asr} (h : ∀ c x, I c x → ∃ bs a c', Emits m c bs a c' ∧ P a c' (x ++ bs)) (hQ : ∀ a, Q a s (P a)) : XWp dev (onWriter m) s I Q E := by
  intro c x hI
  unfold onWriter
  dsimp only
  by_cases hd : dev
  · refine (Tree.Walk.any hd (m.run c) x).bind ?_
    rintro ⟨_ | a, c'⟩ x' -
    · exact hd
    · exact ⟨_, hQ a, .inl hd⟩
  · obtain ⟨bs, a, c', h1, h2⟩ := h c x (hI.resolve_left hd)
    refine (Tree.Walk.of_ideal (P := fun r x' => r.1 = .ok a ∧ P a r.2 x') hd h1 ⟨rfl, h2⟩).bind ?_
    rintro ⟨_ | a, c'⟩ x' ⟨h1, h2⟩
    · cases h1
    · cases h1
      exact ⟨_, hQ a, .inr h2⟩

/-- an allowed call of the writer -/
theorem XWp.writer {op : WOp} {w' : Written} {m : W Unit} {Q : Unit → St → Asr → Prop} (hop : OpOk op) (hs : Step wst w op w') (hw : w'.str = none) (hr : ¬ Rejected op)
    (hm : wop op = (m >>= fun _ => Pure.pure .unit)) (hQ : Q () s (JW wst w')) : XWp dev (onWriter m) s (JW wst w) Q E := by
  refine XWp.emits (P := fun _ => JW wst w') ?_ fun _ => hQ
  rintro c x ⟨h1, h2, rfl⟩
  obtain ⟨bs, c', h3, h4, h5⟩ := step_emits h1 h2 hop hs hw hr hm
  exact ⟨bs, (), c', h3, h5, h2.step hs, h4⟩

theorem XWp.wbind {op : WOp} {w' : Written} {m : W Unit} {f : Unit → X AbsSrc β} {Q : β → St → Asr → Prop} (hop : OpOk op) (hs : Step wst w op w') (hw : w'.str = none) (hr : ¬ Rejected op)
    (hm : wop op = (m >>= fun _ => Pure.pure .unit)) (hf : XWp dev (f ()) s (JW wst w') Q E) : XWp dev (onWriter m >>= f) s (JW wst w) Q E :=
  XWp.bind (P := fun _ s' I' => s' = s ∧ I' = JW wst w') (XWp.writer hop hs hw hr hm ⟨rfl, rfl⟩) fun _ _ _ ⟨e1, e2⟩ => by rw [e1, e2]; exact hf

end rules

/-! ## Strings -/

theorem fill_lo (n : Nat) : ∀ {s : St} {out : Bytes}, s.src.term = none → 1 ≤ n → transferBufSize ≤ n + out.length → out.length ≤ transferBufSize →
    Lo (transferFill n out) s fun p s' => ∃ is cs r, ItemsAre is cs ∧ p.2 = out ++ enc cs ∧
      ((p.1 = true ∧ s.src.rest = is.flatMap StrItem.bytes ++ 0x22 :: r ∧ s' = mv s (is.flatMap StrItem.bytes ++ [0x22]) r) ∨
        (p.1 = false ∧ s.src.rest = is.flatMap StrItem.bytes ++ r ∧ s' = mv s (is.flatMap StrItem.bytes) r ∧ (out = [] → is ≠ []))) := by
  induction n with
  | zero => intro s out _ h; omega
  | succ n ih =>
    intro s out ht _ hb ho
    rw [transferFill]
    refine Wp.ite (fun hc => ?_) fun hc => ?_
    · refine Wp.bind' (Abs.readStringBytes_lo ht) ?_
      rintro _ _ (⟨r, hr, rfl, rfl⟩ | ⟨i, ch, r, hi, hr, rfl, rfl⟩)
      · dsimp only
        rw [if_neg (by simpa using ho), if_pos rfl]
        exact Wp.pure ⟨[], [], r, .nil, by simp [enc], .inl ⟨rfl, hr, rfl⟩⟩
      · dsimp only
        have hl := encChar_length ch
        unfold transferBufSize maxBytesPerChar at *
        rw [if_neg (by omega), if_neg (by exact Bool.false_ne_true)]
        refine (ih (s := mv s i.bytes r) (out := out ++ String.utf8EncodeChar ch) ht (by omega) (by rw [List.length_append]; omega) (by rw [List.length_append]; omega)).post ?_
        rintro ⟨b, bs⟩ s' ⟨is, cs, r', h1, h2, h3⟩
        dsimp only at h2 h3
        have hn : ∀ b, Abs.NoSplit i.bytes b := fun b => (Abs.StrItem.Is.noBreak hi).left
        refine ⟨i :: is, ch :: cs, r', .cons hi h1, by rw [h2]; simp [Verif.enc_cons], ?_⟩
        rcases h3 with ⟨rfl, h3, rfl⟩ | ⟨rfl, h3, rfl, -⟩
        · refine .inl ⟨rfl, ?_, ?_⟩
          · rw [hr, show r = _ from h3]; simp
          · rw [Abs.mv_mv _ _ _ (hn _)]; simp
        · refine .inr ⟨rfl, ?_, ?_, fun _ => nofun⟩
          · rw [hr, show r = _ from h3]; simp
          · rw [Abs.mv_mv _ _ _ (hn _)]; simp
    · refine Wp.pure ⟨[], [], s.src.rest, .nil, by simp [enc], .inr ⟨rfl, rfl, rfl, ?_⟩⟩
      rintro rfl
      exact absurd hc (by decide)

theorem piece_lo (ht : s.src.term = none) : Lo transferPiece s fun p s' => ∃ is r, ItemsAre is p.2 ∧
      ((p.1 = true ∧ s.src.rest = is.flatMap StrItem.bytes ++ 0x22 :: r ∧ s' = mv s (is.flatMap StrItem.bytes ++ [0x22]) r) ∨
        (p.1 = false ∧ s.src.rest = is.flatMap StrItem.bytes ++ r ∧ s' = mv s (is.flatMap StrItem.bytes) r ∧ is ≠ [])) := by
  unfold transferPiece
  refine Wp.bind' (fill_lo transferBufSize (out := []) ht (by decide) (by decide) (by decide)) ?_
  rintro ⟨b, bs⟩ s' ⟨is, cs, r, h1, h2, h3⟩
  dsimp only at h2 h3 ⊢
  rw [h2, toStrUnchecked, List.nil_append, decodeUtf8_enc]
  refine Wp.pure ⟨is, r, h1, ?_⟩
  rcases h3 with h3 | ⟨h3, h4, h5, h6⟩
  · exact .inl h3
  · exact .inr ⟨h3, h4, h5, h6 rfl⟩

/-- in the middle of a string -/
def JS (wst : WSettings) (w : Written) (t : Text) : Asr := fun c x => ∃ c0 c1, Added wst c0 c1 w ∧ w.CanAdd wst ∧ WOk wst w ∧ c = { c1 with stringWriterActive := true, sv := .new } ∧
  x = w.bytes wst ++ (lead wst w.tops w.frames ++ (0x22 :: (strLit wst t).body))

theorem stringLoop_wp (n : Nat) : ∀ {s : St} {t : Text}, s.src.term = none → s.src.rest.length < n →
    XWp dev (transferStringLoop n) s (JS wst w t) (fun _ s' I' => ∃ is cs r, ItemsAre is cs ∧ s.src.rest = is.flatMap StrItem.bytes ++ 0x22 :: r ∧ s' = mv s (is.flatMap StrItem.bytes ++ [0x22]) r ∧
      I' = JS wst w (t ++ cs)) fun e _ => DataErr e := by
  induction n with
  | zero => intro s t _ h; omega
  | succ n ih =>
    intro s t ht hn
    rw [transferStringLoop]
    refine XWp.rbind (piece_lo ht) ?_
    rintro ⟨b, cs⟩ s' ⟨is, r, h1, h2⟩
    dsimp only at h1 h2 ⊢
    refine XWp.bind (P := fun _ s'' I' => s'' = s' ∧ I' = JS wst w (t ++ cs)) (XWp.emits (P := fun _ => JS wst w (t ++ cs)) ?_ fun _ => ⟨rfl, rfl⟩) ?_
    · rintro c x ⟨c0, c1, h3, h4, h5, rfl, rfl⟩
      obtain rfl := h3.settings
      refine ⟨_, (), _, svWriteStr_emits (SvInv.new c1) cs, c0, c1, h3, h4, h5, rfl, ?_⟩
      rw [WSpec.body_append]
      simp
    rintro _ _ _ ⟨rfl, rfl⟩
    rcases h2 with ⟨rfl, h2, rfl⟩ | ⟨rfl, h2, rfl, h3⟩
    · rw [if_pos rfl]
      exact XWp.pure ⟨is, cs, r, h1, h2, rfl, rfl⟩
    · rw [if_neg (by exact Bool.false_ne_true)]
      have hl := Abs.itemsAre_length h1
      have hp := List.length_pos_iff.2 h3
      have hlen : (mv s (is.flatMap StrItem.bytes) r).src.rest.length < n := by
        show r.length < n
        rw [h2, List.length_append] at hn
        omega
      refine (ih (s := mv s (is.flatMap StrItem.bytes) r) ht hlen).post ?_
      rintro _ _ _ ⟨is2, cs2, r2, g1, g2, rfl, rfl⟩
      refine ⟨is ++ is2, cs ++ cs2, r2, Abs.itemsAre_append h1 g1, ?_, ?_, by rw [List.append_assoc]⟩
      · rw [h2, show r = _ from g2]; simp
      · rw [Abs.mv_mv _ _ _ ((Abs.itemsAre_noBreak g1).append Abs.plain_quote.noBreak).right]; simp

theorem sevString_wp (h : At st inp g c s) (hc : CanPeek st c) (he : c.emn = false) : Wp (startExpectedValueType .string false) s (fun _ s' => ∃ l pos r, InvP st inp g c .stringStart l pos r ∧
    mu (stp st c pos (some .stringStart) r) ≤ mu s ∧ s' = stp st c (pos.over [0x22]) none r) (EOk st inp g fun _ => True) := by
  have := Abs.sev_wp (K := fun _ => True) (t := .string) (chk := false) (f := fun p => pure p) (Q := fun _ s' => ∃ l pos r, InvP st inp g c .stringStart l pos r ∧
    mu (stp st c pos (some .stringStart) r) ≤ mu s ∧ s' = stp st c (pos.over [0x22]) none r) h hc he trivial ?_
  · unfold Wp at *
    rw [M.run_bind] at this
    cases hm : (startExpectedValueType .string false).run s with
    | ok a s' => rw [hm] at this; exact this
    | err e s' => rw [hm] at this; exact this
  · intro p l pos r hP hm hv ht _
    cases Abs.typeOf_string hv ht
    exact Wp.pure ⟨l, pos, r, hP, hm, rfl⟩

theorem string_wp (h : At st inp g c s) (hc : CanPeek st c) (he : c.emn = false) (hw : w.CanAdd wst) :
    XWp dev transferString s (JW wst w) (fun _ s' I' => ∃ x : Str, VPost st inp g c s (.str x) s' ∧ I' = JW wst (w.add (.str x.text))) (EOk st inp g fun _ => True) := by
  unfold transferString
  refine XWp.rbind (sevString_wp h hc he) ?_
  rintro _ _ ⟨l, pos, r, hP, hm, rfl⟩
  refine XWp.bind (P := fun _ s' I' => s' = stp st c (pos.over [0x22]) none r ∧ I' = JS wst w []) (XWp.emits (P := fun _ => JS wst w []) ?_ fun _ => ⟨rfl, rfl⟩) ?_
  · rintro c x ⟨h1, h2, rfl⟩
    obtain ⟨c1, h3, h4⟩ := stringValueWriter_emits h1 hw
    exact ⟨_, (), _, h3, c, c1, h4, hw, h2, rfl, by simp [strLit, Str.body]⟩
  rintro _ _ _ ⟨rfl, rfl⟩
  refine XWp.get fun _ => ?_
  refine XWp.bind ((stringLoop_wp _ rfl (by show _ < _ + 2; exact Nat.lt_add_of_pos_right (by decide))).mono (fun _ _ _ h => h) fun _ _ h => EOk.data h) ?_
  rintro _ _ _ ⟨is, cs, r', h1, h2, rfl, rfl⟩
  obtain rfl : r = is.flatMap StrItem.bytes ++ 0x22 :: r' := h2
  refine XWp.bind (P := fun _ s' I' => s' = mv (stp st c (pos.over [0x22]) none (is.flatMap StrItem.bytes ++ 0x22 :: r')) (is.flatMap StrItem.bytes ++ [0x22]) r' ∧ I' = JW wst (w.add (.str ([] ++ cs))))
    (XWp.emits (P := fun _ => JW wst (w.add (.str ([] ++ cs)))) ?_ fun _ => ⟨rfl, rfl⟩) ?_
  · rintro c x ⟨c0, c1, h3, h4, h5, rfl, rfl⟩
    refine ⟨_, (), _, svFinish_emits (SvInv.new c1), winv_finished h3 h4.1 (Same.refl _), h5.add h4 trivial, ?_⟩
    rw [WSpec.add_bytes h4]
    simp [WSpec.cst, Cst.bytes, Str.bytes]
  rintro _ _ _ ⟨rfl, rfl⟩
  let x : Str := ⟨is, cs⟩
  have hx : x.Ok := h1
  refine XWp.reader (P := fun _ s' => VPost st inp g c s (.str x) s') ?_ fun _ _ h => ⟨x, h, rfl⟩
  rw [Abs.mv_stp, show is.flatMap StrItem.bytes = x.body from rfl, Abs.over_str pos hx]
  refine Wp.of_ok (Abs.onValueEnd_run0 (hP.lead.slot rfl)) (Abs.str_post hP hm hx)

/-! ## Values -/

/-- the array or object has been started -/
def Started (c : Ctx) (w : Written) (c' : Ctx) (w' : Written) : Prop :=
  (∃ l, c' = .arr c l [] ∧ w' = { w with frames := .arr [] :: w.frames }) ∨ ∃ l, c' = .obj c l [] ∧ w' = { w with frames := .obj [] none :: w.frames }

/-- a value has been transferred -/
def TPost (st : Settings) (wst : WSettings) (inp : Bytes) (g : Prop) (c : Ctx) (w : Written) (s s' : St) (I : Asr) : Prop :=
  ∃ v, Readable st c v ∧ VPost st inp g c s v s' ∧ I = JW wst (w.add v.value)

theorem start_wp (h : At st inp g c s) (hc : CanPeek st c) (he : c.emn = false) (hw : w.CanAdd wst) :
    XWp dev transferStart s (JW wst w) (fun k s' I' => (k = 0 ∧ TPost st wst inp g c w s s' I') ∨
      (k = 1 ∧ ∃ c' w', At st inp g c' s' ∧ mu s' < mu s ∧ I' = JW wst w' ∧ Started c w c' w')) (EOk st inp g fun _ => True) := by
  unfold transferStart
  refine XWp.rbind (Abs.peek_wp h hc he) ?_
  rintro t _ ⟨p, l, pos, r, hv, rfl, rfl, hP, hm⟩
  have hA : At st inp g c (stp st c pos (some p) r) := .p hP
  have hadd : ∀ v, (w.add v).str = none := fun v => by rw [add_str]; exact hw.1
  cases hp : Abs.typeOf p with
  | array =>
    dsimp only
    refine XWp.rbind (Abs.beginArray_wp hA hc he) ?_
    rintro _ _ ⟨l, pos, r, rfl, hN, hm'⟩
    refine XWp.wbind (op := .beginArray) trivial (.beginArray hw) hw.1 nofun rfl (XWp.pure (.inr ⟨rfl, _, _, .n hN, by omega, rfl, .inl ⟨l, rfl, rfl⟩⟩))
  | object =>
    dsimp only
    refine XWp.rbind (Abs.beginObject_wp hA hc he) ?_
    rintro _ _ ⟨l, pos, r, rfl, hN, hm'⟩
    refine XWp.wbind (op := .beginObject) trivial (.beginObject hw) hw.1 nofun rfl (XWp.pure (.inr ⟨rfl, _, _, .n hN, by omega, rfl, .inr ⟨l, rfl, rfl⟩⟩))
  | string =>
    dsimp only
    refine XWp.bind (string_wp hA hc he hw) ?_
    rintro _ s' _ ⟨x, hv, rfl⟩
    exact XWp.pure (.inl ⟨rfl, .str x, Abs.scalar_readable h rfl trivial, hv.mu_mono hm, rfl⟩)
  | number =>
    dsimp only
    refine XWp.rbind (Abs.nextNumberAsStr_wp hA hc he) ?_
    rintro _ s' ⟨bs, hn, rfl, hr, hv⟩
    have he : enc (asciiText bs) = bs := Abs.asciiText_enc (Abs.isNumber_plain hn)
    have hn' : IsNumber (enc (asciiText bs)) := he.symm ▸ hn
    exact XWp.wbind (op := .numberValue (.transferred (asciiText bs))) hn' (.value hw (.transferred _ hn')) (hadd _) nofun rfl
      (XWp.pure (.inl ⟨rfl, .num bs, Abs.scalar_readable h rfl hr, hv.mu_mono hm, rfl⟩))
  | boolean =>
    dsimp only
    refine XWp.rbind (Abs.nextBool_wp hA hc he) ?_
    intro b s' hv
    exact XWp.wbind (op := .boolValue b) trivial (.value hw (.bool b)) (hadd _) nofun rfl (XWp.pure (.inl ⟨rfl, .bool b, Abs.scalar_readable h rfl trivial, hv.mu_mono hm, rfl⟩))
  | null =>
    dsimp only
    refine XWp.rbind (Abs.nextNull_wp hA hc he) ?_
    intro _ s' hv
    exact XWp.wbind (op := .nullValue) trivial (.value hw .null) (hadd _) nofun rfl (XWp.pure (.inl ⟨rfl, .null, Abs.scalar_readable h rfl trivial, hv.mu_mono hm, rfl⟩))

/-- `c` is `n` levels inside of the value which is the next one in the context `c0`; likewise for the writer -/
inductive OpenW (st : Settings) (c0 : Ctx) (w0 : Written) : Nat → Ctx → Written → Prop
  | z : OpenW st c0 w0 0 c0 w0
  | arr {n : Nat} {u : Ctx} {tops : List JVal} {fs : List WSpec.Frame} (l : Lead) (d : List (Sep × Cst)) : OpenW st c0 w0 n u ⟨tops, fs, none⟩ → (∀ x ∈ d, Readable st (.arr u l []) x.2) →
      OpenW st c0 w0 (n + 1) (.arr u l d) ⟨tops, .arr (d.map fun x => x.2.value) :: fs, none⟩
  | obj {n : Nat} {u : Ctx} {tops : List JVal} {fs : List WSpec.Frame} (l : Lead) (d : List Mem) : OpenW st c0 w0 n u ⟨tops, fs, none⟩ → (∀ x ∈ d, Readable st (.obj u l []) x.v) →
      OpenW st c0 w0 (n + 1) (.obj u l d) ⟨tops, .obj (d.map fun x => (x.name.text, x.v.value)) none :: fs, none⟩
  | val {n : Nat} {u : Ctx} {tops : List JVal} {fs : List WSpec.Frame} (l : Lead) (d : List Mem) (sp : Sep) (x : Str) : OpenW st c0 w0 n u ⟨tops, fs, none⟩ →
      (∀ x ∈ d, Readable st (.obj u l []) x.v) → OpenW st c0 w0 (n + 1) (.val u l d sp x) ⟨tops, .obj (d.map fun x => (x.name.text, x.v.value)) (some x.text) :: fs, none⟩

theorem OpenW.add {n : Nat} {l : Lead} {v : Cst} (h : OpenW st c0 w0 (n + 1) c w) (hs : c.Slot l) (hr : Readable st c v) : OpenW st c0 w0 (n + 1) (c.add l v) (w.add v.value) := by
  cases h with
  | arr l' d h hd =>
    cases l with
    | ws => exact hs.elim
    | colon => exact hs.elim
    | sep sp =>
      have := OpenW.arr l' (d ++ [(sp, v)]) h ?_
      · rw [List.map_append] at this
        exact this
      · intro x hx
        rcases List.mem_append.1 hx with hx | hx
        · exact hd x hx
        · rw [List.mem_singleton.1 hx]; exact hr
  | obj l' d h hd => exact hs.elim
  | val l' d sp x h hd =>
    cases l with
    | ws => exact hs.elim
    | sep => exact hs.elim
    | colon w1 w2 =>
      have := OpenW.obj l' (d ++ [⟨sp, x, w1, w2, v⟩]) h ?_
      · rw [List.map_append] at this
        exact this
      · intro y hy
        rcases List.mem_append.1 hy with hy | hy
        · exact hd y hy
        · rw [List.mem_singleton.1 hy]; exact hr

theorem OpenW.notTop {n : Nat} (h : OpenW st c0 w0 (n + 1) c w) : c.isTop = false := by cases h <;> rfl

theorem OpenW.canAdd {n : Nat} (h : OpenW st c0 w0 n c w) (h0 : w0.CanAdd wst) (he : c.emn = false) : w.CanAdd wst := by
  cases h with
  | z => exact h0
  | arr => exact ⟨rfl, trivial⟩
  | obj => exact Bool.noConfusion he
  | val => exact ⟨rfl, trivial⟩

theorem Started.openW {n : Nat} {c' : Ctx} {w' : Written} (h : Started c w c' w') (ho : OpenW st c0 w0 n c w) (hs : w.str = none) : OpenW st c0 w0 (n + 1) c' w' ∧ c'.isVal = false := by
  obtain ⟨tops, fs, str⟩ := w
  cases hs
  rcases h with ⟨l, rfl, rfl⟩ | ⟨l, rfl, rfl⟩
  · exact ⟨.arr l [] ho nofun, rfl⟩
  · exact ⟨.obj l [] ho nofun, rfl⟩

theorem name_wp {n : Nat} (ho : OpenW st c0 w0 n c w) (h : At st inp g c s) (hc : CanPeek st c) (he : n = 0 → c.emn = false) :
    XWp dev transferName s (JW wst w) (fun _ s' I' => ∃ c' w', At st inp g c' s' ∧ CanPeek st c' ∧ c'.emn = false ∧ mu s' ≤ mu s ∧ OpenW st c0 w0 n c' w' ∧ I' = JW wst w' ∧ (n = 0 → c' = c ∧ w' = w))
      (EOk st inp g fun _ => True) := by
  unfold transferName
  refine XWp.get fun _ => ?_
  dsimp only
  rw [h.emn]
  by_cases hem : c.emn = true
  · rw [if_pos hem]
    cases c with
    | top => exact Bool.noConfusion hem
    | arr => exact Bool.noConfusion hem
    | val => exact Bool.noConfusion hem
    | obj up lu d =>
      cases ho with
      | z => exact Bool.noConfusion (he rfl)
      | obj l d ho hd =>
      refine XWp.rbind (Abs.nextName_wp h) ?_
      rintro _ _ ⟨x, rfl, hx, sp, pos, r, rfl, hN, hm⟩
      exact XWp.writer (op := .name x.text) trivial .name rfl nofun rfl ⟨_, _, .n hN, Abs.isTop_canPeek rfl, rfl, by omega, .val _ _ _ _ ho hd, rfl, nofun⟩
  · rw [if_neg hem]
    exact XWp.pure ⟨c, w, h, hc, by simpa using hem, Nat.le_refl _, ho, rfl, fun _ => ⟨rfl, rfl⟩⟩

theorem Readable.up_arr {u : Ctx} {l : Lead} {d : List (Sep × Cst)} {v : Cst} (h : Readable st (.arr u l []) v) : Readable st (.arr u l d) v := h
theorem Readable.up_obj {u : Ctx} {l : Lead} {d : List Mem} {v : Cst} (h : Readable st (.obj u l []) v) : Readable st (.obj u l d) v := h

/-- the end of an array or object -/
theorem end_wp {n : Nat} (ho : OpenW st c0 w0 (n + 1) c w) (h : At st inp g c s) (hv : c.isVal = false) :
    XWp dev transferEnd s (JW wst w) (fun _ s' I' => ∃ u wu, OpenW st c0 w0 n u wu ∧ TPost st wst inp g u wu s s' I') (EOk st inp g fun _ => True) := by
  unfold transferEnd
  refine XWp.get fun _ => ?_
  dsimp only
  cases ho with
  | @arr _ u tops fs l d ho hd =>
    rw [if_pos (by cases h <;> rfl)]
    refine XWp.rbind (Abs.endArray_wp h) ?_
    rintro _ s' ⟨cl, pos, r, h1, h2, h3, h4⟩
    refine XWp.writer (op := .endArray) trivial .endArray (by rw [add_str]) nofun rfl ⟨u, _, ho, .arr (mkItems cl d), Abs.mkItems_readable (d0 := d) hd h.depth, ⟨l, pos, r, h1, h2, h3, h4⟩, ?_⟩
    rw [Cst.value, Abs.mkItems_values]
  | @obj _ u tops fs l d ho hd =>
    rw [if_neg (by cases h <;> exact Bool.false_ne_true)]
    refine XWp.rbind (Abs.endObject_wp h) ?_
    rintro _ s' ⟨cl, pos, r, h1, h2, h3, h4⟩
    refine XWp.writer (op := .endObject) trivial .endObject (by rw [add_str]) nofun rfl ⟨u, _, ho, .obj (mkMembers cl d), Abs.mkMembers_readable (d0 := d) hd h.depth, ⟨l, pos, r, h1, h2, h3, h4⟩, ?_⟩
    rw [Cst.value, Abs.mkMembers_values]
  | val => exact Bool.noConfusion hv

theorem TPost.mu_mono {s0 : St} {I : Asr} (h : TPost st wst inp g c w s s' I) (hm : mu s ≤ mu s0) : TPost st wst inp g c w s0 s' I := by
  obtain ⟨v, h1, h2, h3⟩ := h
  exact ⟨v, h1, h2.mu_mono hm, h3⟩

theorem loop_wp (hw0 : w0.CanAdd wst) : ∀ {fuel n : Nat} {c : Ctx} {w : Written} {s : St}, OpenW st c0 w0 n c w → At st inp g c s → CanPeek st c → (n = 0 → c.emn = false) → (0 < n → c.isVal = false) →
    mu s < fuel → XWp dev (transferLoop fuel n) s (JW wst w) (fun _ s' I' => TPost st wst inp g c0 w0 s s' I') (EOk st inp g fun _ => True) := by
  intro fuel
  induction fuel with
  | zero => intro n c w s _ _ _ _ _ h; omega
  | succ fuel ih =>
    intro n c w s ho h hc he hv hf
    -- behind a value
    have done : ∀ {k : Nat} {u : Ctx} {wu : Written} {s1 s' : St} {I' : Asr}, OpenW st c0 w0 k u wu → mu s1 ≤ mu s → TPost st wst inp g u wu s1 s' I' →
        XWp dev (transferFinish k fuel) s' I' (fun _ s' I' => TPost st wst inp g c0 w0 s s' I') (EOk st inp g fun _ => True) := by
      intro k u wu s1 s' I' hou hm1 ht
      unfold transferFinish
      cases k with
      | zero =>
        rw [if_pos rfl]
        cases hou
        exact XWp.pure (ht.mu_mono hm1)
      | succ k =>
        rw [if_neg (by simp)]
        obtain ⟨v, hr, ⟨l, pos, r, hsl, rfl, hX, hm⟩, rfl⟩ := ht
        have ho' := hou.add hsl hr
        exact (ih ho' (.n hX.toInvN) (Abs.isTop_canPeek ho'.notTop) (by omega) (fun _ => Abs.Ctx.add_isVal hsl) (by omega)).post fun _ _ _ h => h.mu_mono (by omega)
    have elem : ∀ {s1 : St}, At st inp g c s1 → mu s1 ≤ mu s →
        XWp dev (transferName >>= fun _ => transferRest fuel n) s1 (JW wst w) (fun _ s' I' => TPost st wst inp g c0 w0 s s' I') (EOk st inp g fun _ => True) := by
      intro s1 h1 hm1
      refine XWp.bind (name_wp ho h1 hc he) ?_
      rintro _ s2 _ ⟨c2, w2, h2, hc2, he2, hm2, ho2, rfl, -⟩
      have hw2 := ho2.canAdd hw0 he2
      unfold transferRest
      refine XWp.bind (start_wp h2 hc2 he2 hw2) ?_
      rintro k s3 I' (⟨rfl, h3⟩ | ⟨rfl, c3, w3, h3, hm3, rfl, hs⟩)
      · rw [finish_zero]
        exact done ho2 (by omega) h3
      · rw [if_neg (by simp)]
        obtain ⟨ho3, hv3⟩ := hs.openW ho2 hw2.1
        exact (ih ho3 h3 (Abs.isTop_canPeek ho3.notTop) (by omega) (fun _ => hv3) (by omega)).post fun _ _ _ h => h.mu_mono (by omega)
    rw [loop_eq]
    cases n with
    | zero =>
      refine XWp.rbind (P := fun b s' => b = false ∧ s' = s) (Wp.of_ok (a := false) (s' := s) rfl ⟨rfl, rfl⟩) ?_
      rintro _ _ ⟨rfl, rfl⟩
      rw [if_neg (by exact Bool.false_ne_true)]
      exact elem h (Nat.le_refl _)
    | succ n =>
      refine XWp.rbind (P := fun b s' => At st inp g c s' ∧ mu s' ≤ mu s) ?_ ?_
      · rw [Abs.atContainerEnd_succ]
        refine Wp.bind' (Abs.hasNext_wp h (hv (by omega)) ho.notTop) ?_
        rintro b _ ⟨p, l, pos, r, rfl, rfl, hP, hm⟩
        exact Wp.pure ⟨.p hP, hm⟩
      · rintro b s1 ⟨h1, hm1⟩
        by_cases hb : b = true
        · rw [if_pos hb]
          refine XWp.bind (end_wp ho h1 (hv (by omega))) ?_
          rintro _ s' I' ⟨u, wu, hou, ht⟩
          exact done hou hm1 ht
        · rw [if_neg hb]
          exact elem h1 hm1

/-- `transfer_to` on arbitrary input -/
theorem transferTo_wp (h : At st inp g c s) (hc : CanPeek st c) (he : c.emn = false) (hw : w.CanAdd wst) :
    XWp dev transferTo s (JW wst w) (fun _ s' I' => TPost st wst inp g c w s s' I') (EOk st inp g fun _ => True) := by
  unfold transferTo
  refine XWp.get fun _ => ?_
  dsimp only
  rw [h.emn, if_neg (by rw [he]; decide)]
  exact loop_wp hw .z h hc (fun _ => he) (by omega) (Abs.fuel_mu h)

/-- `transfer_to` in front of a malformed string -/
theorem transferTo_badString {pos : Abs.Pos} {r : Bytes} (hp : Abs.PeekTo .stringStart s (stp st c pos (some .stringStart) r)) (he : c.emn = false) (hes : s.expectsMemberName = false) (hw : w.CanAdd wst)
    (hno : Abs.NoString r) : XWp dev transferTo s (JW wst w) (fun _ _ _ => False) fun e _ => DataErr e := by
  unfold transferTo
  refine XWp.get fun _ => ?_
  dsimp only
  rw [hes, if_neg (by decide)]
  show XWp dev (transferLoop (s.src.rest.length + 1 + 1) 0) s (JW wst w) _ _
  rw [loop_eq]
  refine XWp.rbind (P := fun b s' => b = false ∧ s' = s) (Wp.of_ok (a := false) (s' := s) rfl ⟨rfl, rfl⟩) ?_
  rintro _ s1 ⟨rfl, h1⟩
  rw [if_neg (by exact Bool.false_ne_true), h1]
  refine XWp.bind (P := fun _ s' I' => s' = s ∧ I' = JW wst w) ?_ ?_
  · unfold transferName
    refine XWp.get fun _ => ?_
    dsimp only
    rw [hes, if_neg (by decide)]
    exact XWp.pure ⟨rfl, rfl⟩
  rintro _ s2 _ ⟨h2, rfl⟩
  rw [h2]
  unfold transferRest
  refine XWp.bind (P := fun _ _ _ => False) ?_ fun _ _ _ h => h.elim
  unfold transferStart
  refine XWp.rbind (P := fun t s' => t = .string ∧ s' = stp st c pos (some .stringStart) r) (Wp.of_ok (hp.peek hes) ⟨rfl, rfl⟩) ?_
  rintro _ _ ⟨rfl, rfl⟩
  dsimp only
  refine XWp.bind (P := fun _ _ _ => False) ?_ fun _ _ _ h => h.elim
  unfold transferString
  refine XWp.rbind (P := fun _ s' => s' = stp st c (pos.over [0x22]) none r) (Wp.of_ok (Abs.sev_ok (t := .string) (chk := false) he rfl rfl Bool.noConfusion) rfl) ?_
  rintro _ _ rfl
  refine XWp.bind (P := fun _ s' I' => s' = stp st c (pos.over [0x22]) none r ∧ I' = JS wst w []) (XWp.emits (P := fun _ => JS wst w []) ?_ fun _ => ⟨rfl, rfl⟩) ?_
  · rintro c x ⟨h1, h2, rfl⟩
    obtain ⟨c1, h3, h4⟩ := stringValueWriter_emits h1 hw
    exact ⟨_, (), _, h3, c, c1, h4, hw, h2, rfl, by simp [strLit, Str.body]⟩
  rintro _ _ _ ⟨rfl, rfl⟩
  refine XWp.get fun _ => ?_
  refine XWp.bind (stringLoop_wp _ rfl (by show _ < _ + 2; exact Nat.lt_add_of_pos_right (by decide))) ?_
  rintro _ _ _ ⟨is, cs, r', h1, h2, -⟩
  exact absurd h2 (hno ⟨is, cs⟩ r' h1)

end Verif.Transfer
