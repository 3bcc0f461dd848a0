import Verif.Proofs.Abs.Read
/-! # Complete documents -/

namespace Verif.Abs
open Reader Utf8 Json Prog

section
variable {st : Settings} {inp : Bytes} {g : Prop} {c : Ctx} {l : Lead} {v : Cst} {pos : Pos} {r : Bytes} {s s' : St} {n : Nat} {d : List (Ws × Cst)}

theorem restricted_iff {bs : Bytes} : Restricted st bs ↔ st.restrictNumberValues = true ∧ UnsupportedNumber bs := by
  refine and_congr_right fun _ => or_congr_right ⟨?_, ?_⟩
  · rintro ⟨k, ⟨p, h1, h2, h3⟩, h⟩
    exact ⟨p, h1, h2, by omega⟩
  · rintro ⟨p, h1, h2, h3⟩
    exact ⟨_, ⟨p, h1, h2, rfl⟩, h3⟩

theorem readable_top : Readable st (.top d) v ↔ v.Within st.maxNestingDepth st.restrictNumberValues := by
  have : (fun bs => ¬ Restricted st bs) = fun bs => ¬ (st.restrictNumberValues = true ∧ UnsupportedNumber bs) := by
    funext bs
    rw [restricted_iff]
  unfold Readable Cst.Within
  rw [this, and_comm]
  refine and_congr_left fun _ => forall_congr' fun n => ?_
  show (_ → 0 + _ ≤ _) ↔ _
  rw [Nat.zero_add]

theorem trail_sepOk {t : TrailWs} {b : Bool} (h : t.Ok b) : SepOk t.bytes := by
  obtain ⟨w, o⟩ := t
  obtain ⟨h1, -⟩ := h
  intro y hy
  cases w with
  | nil =>
    cases o with
    | none => cases hy
    | some cs => cases hy; rfl
  | cons i w =>
    have hi := h1 i (List.mem_cons_self ..)
    cases i with
    | space x =>
      cases hy
      rcases hi with rfl | rfl | rfl | rfl <;> rfl
    | line cs nl => cases hy; rfl
    | block cs => cases hy; rfl

theorem consumeTrailing_ok {t : TrailWs} (hd : d ≠ []) (ht : t.Ok st.allowComments) :
    consumeTrailingWhitespace.run (stp st (.top d) pos none t.bytes) = .ok () (stp st (.top d) (pos.over t.bytes) none []) := by
  unfold consumeTrailingWhitespace
  rw [run_get, if_neg (by exact Bool.false_ne_true), if_pos (by rfl), if_neg (by simpa [stp, Ctx.isEmpty] using hd), M.bind_ok (skipWhitespace_eof rfl ht rfl)]
  rfl

theorem hasNext_top_eof {t : TrailWs} (hd : d ≠ []) (hm : st.allowMultipleTopLevel = true) (ht : t.Ok st.allowComments) :
    hasNext.run (stp st (.top d) pos none t.bytes) = .ok false (stp st (.top d) (pos.over t.bytes) none []) := by
  unfold hasNext
  rw [run_get, if_neg (by exact Bool.false_ne_true)]
  rw [M.bind_ok (a := none) (s' := stp st (.top d) (pos.over t.bytes) none [])]
  · rfl
  · rw [if_pos (by rfl), if_neg (by simpa [stp, Ctx.isEmpty] using hd), if_neg (by simp [stp, hm])]
    exact pio_eof (fun _ _ => .inr hm) ⟨t, ht, rfl⟩

theorem Front.hasNext_top (h : Front st (.top d) s l v pos r) (hd : d ≠ []) (hm : st.allowMultipleTopLevel = true) :
    ∃ s', Reader.hasNext.run s = .ok true s' ∧ Front st (.top d) s' l v pos r := by
  refine ⟨_, ?_, h.peeked⟩
  have h1 : s.settings = st := by rcases h.at' with h1 | ⟨_, h1, _⟩ <;> rw [h1] <;> rfl
  rw [h.peek.hasNext (by rcases h.at' with h1 | ⟨_, h1, _⟩ <;> rw [h1] <;> rfl) fun _ => ⟨by rcases h.at' with h1 | ⟨_, h1, _⟩ <;> rw [h1] <;> simpa [stp, Ctx.isEmpty] using hd, by rw [h1]; exact hm⟩,
    Abs.hasNext_top hd hm (isValue_start v)]

/-- the initial state -/
theorem at_new (st : Settings) (bytes : Bytes) : At st bytes True (.top []) (new (σ := AbsSrc) ⟨bytes, none, []⟩ st) := by
  rw [new_eq]
  exact .n ⟨trivial, fun _ _ => Nat.zero_le _, Bool.noConfusion, fun _ => ⟨⟨trivial, .inl (Nat.zero_le _)⟩, .inl ⟨rfl, rfl⟩⟩⟩

theorem front_new {w : Ws} (hw : w.Ok st.allowComments) (hv : v.Ok (cfgOf st)) (hb : v.isBare = true → SepOk r) :
    Front st (.top []) (new (σ := AbsSrc) ⟨w.bytes ++ (v.bytes ++ r), none, []⟩ st) (.ws w) v ((posOf []).over w.bytes) r := by
  rw [new_eq]
  exact Front.of_none (l := .ws w) ⟨isValue_start v, hw, .inl rfl, nofun⟩ hv hb

theorem readDoc_toR : (readDoc n).toR (σ := AbsSrc) = (readValue n).toR >>= fun v => consumeTrailingWhitespace >>= fun _ => pure v := by
  unfold readDoc
  simp only [toR_bind, toR_unit (σ := AbsSrc) (op := .consumeTrailingWhitespace) (m := consumeTrailingWhitespace) rfl, toR_pure]

theorem consumeTrailing_at (h : At st inp True (.top d) s) (hd : d ≠ []) : Lo consumeTrailingWhitespace s fun _ _ => ∃ t : TrailWs, t.Ok st.allowComments ∧ s.src.rest = t.bytes := by
  unfold consumeTrailingWhitespace
  refine Wp.get ?_
  rw [h.sra, if_neg (by decide), h.stack, if_pos (by rfl), h.isEmpty, if_neg (by simpa [Ctx.isEmpty] using hd)]
  refine Wp.bind' (skipWhitespace_lo (by cases h <;> rfl)) ?_
  rw [h.settings]
  rintro o _ (⟨w, b, t, hw, hb, rfl, hr, rfl⟩ | ⟨_, rfl, t, ht, hr, rfl⟩)
  · exact Wp.of_err rfl trivial
  · exact Wp.pure ⟨t, ht, hr⟩

theorem wp_ok {α : Type} {m : R AbsSrc α} {a : α} {Q : α → St → Prop} {E : RErr → St → Prop} (h : Wp m s Q E) (hr : m.run s = .ok a s') : Q a s' := by
  unfold Wp at h
  rw [hr] at h
  exact h

theorem mu_new (bytes : Bytes) : mu (new (σ := AbsSrc) ⟨bytes, none, []⟩ st) = bytes.length := rfl

theorem readDoc_iff {bytes : Bytes} {v : JVal} (hn : 2 * bytes.length < n) :
    execAbs st bytes none (readDoc n) = .ok v ↔ ∃ d : Doc, d.Ok (cfgOf st) ∧ d.bytes = bytes ∧ d.value.value = v ∧ d.value.Within st.maxNestingDepth st.restrictNumberValues := by
  unfold execAbs
  rw [readDoc_toR]
  constructor
  · intro h
    cases hr : ((readValue n).toR >>= fun v => consumeTrailingWhitespace >>= fun _ => pure v : R AbsSrc JVal).run (new (σ := AbsSrc) ⟨bytes, none, []⟩ st) with
    | err e s => rw [hr] at h; cases h
    | ok a s =>
      rw [hr] at h
      cases h
      obtain ⟨v', s1, h1, h2⟩ := M.bind_eq_ok.1 hr
      obtain ⟨_, s2, h3, h4⟩ := M.bind_eq_ok.1 h2
      cases h4
      obtain ⟨cst, rfl, hread, hv⟩ := wp_ok ((read_wp n).1 (at_new st bytes) (fun _ h => .inl (by cases h; rfl)) rfl (by rw [mu_new]; exact hn)) h1
      obtain ⟨l, pos, r, hs, rfl, hX, -⟩ := hv
      cases l with
      | sep => exact hs.elim
      | colon => exact hs.elim
      | ws w =>
      obtain ⟨t, ht, hrest⟩ := wp_ok (consumeTrailing_at (d := [(w, cst)]) (.n hX.toInvN) (by simp)) h3
      obtain ⟨hb, -⟩ := hX.exact trivial
      obtain ⟨⟨hok, -⟩, -⟩ := hX.good trivial
      refine ⟨⟨w, cst, t⟩, ⟨hok.1, hok.2.2.1, ht⟩, ?_, rfl, readable_top.1 hread⟩
      rw [hb]
      change r = t.bytes at hrest
      rw [hrest]
      simp [Doc.bytes, Ctx.add, Ctx.bytes, topBytes]
  · rintro ⟨d, ⟨h1, h2, h3⟩, rfl, rfl, hw⟩
    have hf := front_new h1 h2 (r := d.tail.bytes) fun _ => trail_sepOk h3
    have := hf.readValue (n := n) (readable_top.2 hw) (by simp only [Doc.bytes, List.length_append] at hn; omega)
    unfold Doc.bytes
    rw [M.bind_ok this]
    have h4 : (consumeTrailingWhitespace >>= fun _ => pure d.value.value : R AbsSrc JVal).run (behind st (.top []) (.ws d.ws) d.value ((posOf []).over d.ws.bytes) d.tail.bytes) = _ :=
      M.bind_ok (consumeTrailing_ok (by simp) h3)
    rw [h4]
    rfl

/-! ## Multiple top-level values -/

theorem readMore_toR : (readMore (n + 1)).toR (σ := AbsSrc) = hasNext >>= fun b => if b then (readValue n).toR >>= fun v => (readMore n).toR >>= fun vs => pure (v :: vs) else pure [] := by
  have : readMore (n + 1) = boolCall .hasNext >>= fun b => if b then readValue n >>= fun v => readMore n >>= fun vs => pure (v :: vs) else pure [] := rfl
  rw [this, toR_bind, toR_bool (m := hasNext) rfl]
  congr 1
  funext b
  cases b
  · rfl
  · simp only [if_true, toR_bind, toR_pure]

theorem readAll_toR : (readAll n).toR (σ := AbsSrc) = (readValue n).toR >>= fun v => (readMore n).toR >>= fun vs => consumeTrailingWhitespace >>= fun _ => pure (v :: vs) := by
  unfold readAll
  simp only [toR_bind, toR_unit (σ := AbsSrc) (op := .consumeTrailingWhitespace) (m := consumeTrailingWhitespace) rfl, toR_pure]

theorem readMore_wp (hm : st.allowMultipleTopLevel = true) : ∀ n {d s}, At st inp g (.top d) s → d ≠ [] → 2 * mu s + 1 < n →
    Wp (readMore n).toR s (fun vs s' => ∃ xs : List (Ws × Cst), (xs.map fun x => x.2.value) = vs ∧ (∀ x ∈ xs, Readable st (.top d) x.2) ∧ At st inp g (.top (d ++ xs)) s' ∧
      s'.peeked = none) (EOk st inp g fun _ => True) := by
  intro n
  induction n with
  | zero => intro d s _ _ h; omega
  | succ n ih =>
    intro d s h hd hn
    rw [readMore_toR]
    refine Wp.bind' (hasNext_top_wp h hd hm) ?_
    rintro b s1 (⟨rfl, p, l, pos, r, -, hs1, hP, hm1⟩ | ⟨rfl, pos, r, pos', rfl, he, rfl, hi⟩)
    · rw [if_pos rfl]
      have h1 : At st inp g (.top d) s1 := by rw [hs1]; exact .p hP
      refine Wp.bind' ((read_wp n).1 h1 (fun _ _ => .inr hm) rfl (by omega)) ?_
      rintro _ s2 ⟨cst, rfl, hr, l, pos, r, hsl, hs2, hX, hm2⟩
      cases l with
      | sep => exact hsl.elim
      | colon => exact hsl.elim
      | ws w =>
      have h2 : At st inp g (.top (d ++ [(w, cst)])) s2 := by rw [hs2]; exact .n hX.toInvN
      refine Wp.bind' (ih h2 (by simp) (by omega)) ?_
      rintro _ s3 ⟨xs, rfl, hr', h3, hp⟩
      refine Wp.pure ⟨(w, cst) :: xs, rfl, ?_, ?_, hp⟩
      · intro x hx
        rcases List.mem_cons.1 hx with rfl | hx
        · exact hr
        · exact hr' x hx
      · rw [show d ++ (w, cst) :: xs = d ++ [(w, cst)] ++ xs by simp]
        exact h3
    · exact Wp.pure ⟨[], rfl, (by simp), (by rw [List.append_nil]; exact .n hi), rfl⟩

def mkTops (t : TrailWs) : List (Ws × Cst) → Tops
  | [] => .nil t
  | x :: xs => .cons x.1 x.2 (mkTops t xs)

theorem mkTops_bytes {t : TrailWs} {xs : List (Ws × Cst)} : (mkTops t xs).bytes = (Ctx.top xs).bytes ++ t.bytes := by
  induction xs with
  | nil => rfl
  | cons x xs ih => simp [mkTops, Tops.bytes, ih, Ctx.bytes, topBytes]

theorem mkTops_ok {t : TrailWs} {cfg : Cfg} (ht : t.Ok cfg.comments) : ∀ {xs : List (Ws × Cst)} {b : Bool}, TopsOk cfg b xs → (mkTops t xs).Ok cfg b
  | [], _, _ => ht
  | _ :: _, _, h => ⟨h.1, h.2.1, h.2.2.1, mkTops_ok ht h.2.2.2⟩

theorem mkTops_values {t : TrailWs} {xs : List (Ws × Cst)} : (mkTops t xs).values = xs.map fun x => x.2.value := by
  induction xs with
  | nil => rfl
  | cons x xs ih => simp [mkTops, Tops.values, ih]

theorem mkTops_within {t : TrailWs} {xs : List (Ws × Cst)} (h : ∀ x ∈ xs, Readable st (.top d) x.2) : (mkTops t xs).Within st.maxNestingDepth st.restrictNumberValues := by
  induction xs with
  | nil => trivial
  | cons x xs ih => exact ⟨readable_top.1 (h x (List.mem_cons_self ..)), ih fun y hy => h y (List.mem_cons_of_mem _ hy)⟩

theorem tops_sepOk {t : Tops} {cfg : Cfg} (h : t.Ok cfg true) : SepOk t.bytes := by
  cases t with
  | nil t => exact trail_sepOk (b := cfg.comments) h
  | cons w v rest =>
    obtain ⟨h1, h2, -⟩ := h
    intro y hy
    cases w with
    | nil => exact absurd rfl (h2 rfl)
    | cons i w =>
      have hi := h1 i (List.mem_cons_self ..)
      cases i with
      | space x =>
        cases hy
        rcases hi with rfl | rfl | rfl | rfl <;> rfl
      | line cs nl => cases hy; rfl
      | block cs => cases hy; rfl

theorem readMore_ok (hm : st.allowMultipleTopLevel = true) : ∀ {t : Tops} {d : List (Ws × Cst)} {pos : Pos} {n : Nat}, d ≠ [] → t.Ok (cfgOf st) (bareLast d) → t.Within st.maxNestingDepth st.restrictNumberValues →
    t.bytes.length < n → ∃ d' pos', d' ≠ [] ∧ (readMore n).toR.run (stp st (.top d) pos none t.bytes) = .ok t.values (stp st (.top d') pos' none [])
  | .nil t, d, pos, n, hd, hok, hw, hn => by
    obtain ⟨n, rfl⟩ : ∃ k, n = k + 1 := ⟨n - 1, by omega⟩
    refine ⟨d, pos.over t.bytes, hd, ?_⟩
    rw [readMore_toR, M.bind_ok (show Reader.hasNext.run (stp st (.top d) pos none (Tops.nil t).bytes) = _ from hasNext_top_eof hd hm hok)]
    rfl
  | .cons w v rest, d, pos, n, hd, hok, hw, hn => by
    obtain ⟨n, rfl⟩ : ∃ k, n = k + 1 := ⟨n - 1, by omega⟩
    obtain ⟨h1, h2, h3, h4⟩ := hok
    have hf : Front st (.top d) (stp st (.top d) pos none (Tops.cons w v rest).bytes) (.ws w) v (pos.over w.bytes) rest.bytes := by
      refine Front.of_none (l := .ws w) ⟨isValue_start v, h1, .inr hm, h2⟩ h3 ?_
      intro hb
      rw [hb] at h4
      exact tops_sepOk h4
    obtain ⟨s1, hh, hf1⟩ := hf.hasNext_top hd hm
    have hlen : (Tops.cons w v rest).bytes.length = w.bytes.length + (v.bytes.length + rest.bytes.length) := by simp [Tops.bytes]
    have hpos : 1 ≤ v.bytes.length := by have := stepsV_le v h3; omega
    have hv := hf1.readValue (n := n) (readable_top.2 hw.1) (by omega)
    obtain ⟨d', pos', hd', h5⟩ := readMore_ok hm (t := rest) (d := d ++ [(w, v)]) (pos := (pos.over w.bytes).over v.bytes) (n := n) (by simp)
      (by rw [show bareLast (d ++ [(w, v)]) = v.isBare by simp [bareLast]]; exact h4) hw.2 (by omega)
    refine ⟨d', pos', hd', ?_⟩
    rw [readMore_toR, M.bind_ok hh, if_pos rfl, M.bind_ok hv]
    refine (M.bind_ok h5).trans ?_
    rfl

theorem readAll_iff {bytes : Bytes} {vs : List JVal} (hm : st.allowMultipleTopLevel = true) (hn : 2 * bytes.length + 1 < n) :
    execAbs st bytes none (readAll n) = .ok vs ↔ vs ≠ [] ∧ ∃ t : Tops, t.Ok (cfgOf st) false ∧ t.bytes = bytes ∧ t.values = vs ∧ t.Within st.maxNestingDepth st.restrictNumberValues := by
  unfold execAbs
  rw [readAll_toR]
  constructor
  · intro h
    cases hr : ((readValue n).toR >>= fun v => (readMore n).toR >>= fun vs => consumeTrailingWhitespace >>= fun _ => pure (v :: vs) : R AbsSrc (List JVal)).run (new (σ := AbsSrc) ⟨bytes, none, []⟩ st) with
    | err e s => rw [hr] at h; cases h
    | ok a s =>
      rw [hr] at h
      cases h
      obtain ⟨v', s1, h1, h2⟩ := M.bind_eq_ok.1 hr
      obtain ⟨vs', s2, h3, h4⟩ := M.bind_eq_ok.1 h2
      obtain ⟨_, s3, h5, h6⟩ := M.bind_eq_ok.1 h4
      cases h6
      refine ⟨by simp, ?_⟩
      obtain ⟨cst, rfl, hread, hv⟩ := wp_ok ((read_wp n).1 (at_new st bytes) (fun _ h => .inl (by cases h; rfl)) rfl (by rw [mu_new]; omega)) h1
      obtain ⟨l, pos, r, hs, hs1, hX, hmu⟩ := hv
      cases l with
      | sep => exact hs.elim
      | colon => exact hs.elim
      | ws w =>
      have hat : At st bytes True (.top [(w, cst)]) s1 := by rw [hs1]; exact .n hX.toInvN
      obtain ⟨xs, rfl, hr', hat2, hp⟩ := wp_ok (readMore_wp hm n hat (by simp) (by rw [mu_new] at hmu; omega)) h3
      obtain ⟨t, ht, hrest⟩ := wp_ok (consumeTrailing_at hat2 (by simp)) h5
      cases hat2 with
      | p => cases hp
      | @n pos r hN =>
        obtain ⟨⟨hok, -⟩, hg⟩ := hN.good trivial
        have : ∃ t : TrailWs, t.Ok st.allowComments ∧ bytes = (Ctx.top ([(w, cst)] ++ xs)).bytes ++ t.bytes := by
          rcases hg with ⟨hb, -⟩ | ⟨_, _, t, ht, hb, _⟩
          · exact ⟨t, ht, by rw [hb]; exact congrArg _ hrest⟩
          · exact ⟨t, ht, hb⟩
        obtain ⟨t, ht, hb⟩ := this
        refine ⟨mkTops t ((w, cst) :: xs), mkTops_ok (cfg := cfgOf st) ht hok, by rw [mkTops_bytes, hb]; rfl, by rw [mkTops_values]; rfl, ?_⟩
        refine mkTops_within (d := []) ?_
        intro x hx
        rcases List.mem_cons.1 hx with rfl | hx
        · exact hread
        · exact readable_top.2 (readable_top.1 (hr' x hx))
  · rintro ⟨hne, t, hok, rfl, rfl, hw⟩
    cases t with
    | nil => exact absurd rfl hne
    | cons w v rest =>
      obtain ⟨h1, -, h3, h4⟩ := hok
      have hf : Front st (.top []) (new (σ := AbsSrc) ⟨(Tops.cons w v rest).bytes, none, []⟩ st) (.ws w) v ((posOf []).over w.bytes) rest.bytes :=
        front_new h1 h3 (r := rest.bytes) fun hb => by rw [hb] at h4; exact tops_sepOk h4
      have hlen : (Tops.cons w v rest).bytes.length = w.bytes.length + (v.bytes.length + rest.bytes.length) := by simp [Tops.bytes]
      have hv := hf.readValue (n := n) (readable_top.2 hw.1) (by omega)
      obtain ⟨d', pos', hd', h5⟩ := readMore_ok hm (t := rest) (d := [(w, v)]) (pos := ((posOf []).over w.bytes).over v.bytes) (n := n) (by simp) h4 hw.2 (by omega)
      rw [M.bind_ok hv]
      have h6 : ((readMore n).toR >>= fun vs => consumeTrailingWhitespace >>= fun _ => pure (v.value :: vs) : R AbsSrc (List JVal)).run (behind st (.top []) (.ws w) v ((posOf []).over w.bytes) rest.bytes) = .ok (v.value :: rest.values) (stp st (.top d') (pos'.over (TrailWs.bytes ⟨[], none⟩)) none []) := by
        refine (M.bind_ok h5).trans ?_
        refine (M.bind_ok (consumeTrailing_ok (t := ⟨[], none⟩) hd' ⟨by simp [Ws.Ok], nofun⟩)).trans ?_
        rfl
      rw [h6]
      rfl

end
end Verif.Abs
