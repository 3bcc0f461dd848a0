import Verif.Proofs.Kinds.Basic
/-! # Which errors the methods of the reader report -/

namespace Verif.Kinds
open Reader ErrorKinds JsonNumber

variable {st : Settings} {d : Does}

/-! ## Numbers -/

section
variable {S : Type} {f : S → St} {P : S → S → Prop} [Kr f P] {n : M RErr S (Option UInt8)} (hn : BlG st d f P n)
include hn

theorem consumeDigits_bl : ∀ k, BlG st d f P (consumeDigits n .outOfFuel k)
  | 0 => BlG.oof
  | k + 1 => by
    refine BlG.bind hn fun r => ?_
    cases r with
    | none => exact BlG.pure _
    | some b => exact BlG.ite (fun _ => consumeDigits_bl k) fun _ => BlG.pure _

theorem consumeExpDigits_bl : ∀ k c, BlG st d f P (consumeExpDigits n .outOfFuel k c)
  | 0, _ => BlG.oof
  | k + 1, c => by
    refine BlG.bind hn fun r => ?_
    cases r with
    | none => exact BlG.pure _
    | some b => exact BlG.ite (fun _ => consumeExpDigits_bl k _) fun _ => BlG.pure _

omit hn in
theorem finish_bl (c : Nat) (b : UInt8) : BlG st d f P (finish c b : M RErr S _) := BlG.ite (fun _ => BlG.pure _) fun _ => BlG.pure _

theorem exponentDigits_bl (k : Nat) (b : UInt8) : BlG st d f P (exponentDigits n .outOfFuel k b) := by
  refine BlG.ite (fun _ => ?_) fun _ => BlG.pure _
  refine BlG.bind (consumeExpDigits_bl hn _ _) fun r => ?_
  rcases r with ⟨c, _ | b⟩
  · exact BlG.pure _
  · exact finish_bl _ _

theorem exponentPart_bl (k : Nat) (b : UInt8) : BlG st d f P (exponentPart n .outOfFuel k b) := by
  refine BlG.ite (fun _ => ?_) fun _ => finish_bl _ _
  refine BlG.bind hn fun r => ?_
  cases r with
  | none => exact BlG.pure _
  | some b =>
    refine BlG.ite (fun _ => ?_) fun _ => exponentDigits_bl hn _ _
    refine BlG.bind hn fun r => ?_
    cases r with
    | none => exact BlG.pure _
    | some b => exact exponentDigits_bl hn _ _

theorem fractionPart_bl (k : Nat) (b : UInt8) : BlG st d f P (fractionPart n .outOfFuel k b) := by
  refine BlG.ite (fun _ => ?_) fun _ => exponentPart_bl hn _ _
  refine BlG.bind hn fun r => ?_
  cases r with
  | none => exact BlG.pure _
  | some b =>
    refine BlG.ite (fun _ => ?_) fun _ => BlG.pure _
    refine BlG.bind (consumeDigits_bl hn _) fun r => ?_
    cases r with
    | none => exact BlG.pure _
    | some b => exact exponentPart_bl hn _ _

theorem integerPart_bl (k : Nat) (b : UInt8) : BlG st d f P (integerPart n .outOfFuel k b) := by
  refine BlG.ite (fun _ => ?_) fun _ => BlG.ite (fun _ => ?_) fun _ => BlG.pure _
  · refine BlG.bind (consumeDigits_bl hn _) fun r => ?_
    cases r with
    | none => exact BlG.pure _
    | some b => exact fractionPart_bl hn _ _
  · refine BlG.bind hn fun r => ?_
    cases r with
    | none => exact BlG.pure _
    | some b => exact fractionPart_bl hn _ _

theorem consumeJsonNumber_bl (k : Nat) (b : UInt8) : BlG st d f P (consumeJsonNumber n .outOfFuel k b) := by
  refine BlG.ite (fun _ => ?_) fun _ => integerPart_bl hn _ _
  refine BlG.bind hn fun r => ?_
  cases r with
  | none => exact BlG.pure _
  | some b => exact integerPart_bl hn _ _
end

/-- states while a number is consumed -/
def Kn (s s' : St × Nat) : Prop := K s.1 s'.1

instance : Kr Prod.fst Kn := ⟨fun _ => ⟨rfl, rfl⟩, fun h h' => ⟨h'.1.trans h.1, h'.2.trans h.2⟩, fun h => h.1⟩

theorem numberNext_bl {c : R AbsSrc Unit} {k : R AbsSrc (Option UInt8)} (hc : Bl st d K c) (hk : Bl st d K k) : BlG st d Prod.fst Kn (numberNext c k) := by
  rintro ⟨s, n⟩ hs
  have h := Bl.bind hc (fun _ => hk) s hs
  unfold Wp numberNext at *
  dsimp only
  cases h1 : M.run (do c; k) s with
  | ok a t => rw [h1] at h; exact h
  | err e t => rw [h1] at h; exact h

section
variable (hr : d.reads = true)
include hr

section
variable (hn : d.numbers = true)
include hn

theorem consumeNumber_bl {cr c : R AbsSrc Unit} {k : R AbsSrc (Option UInt8)} (hcr : Bl st d K cr) (hc : Bl st d K c) (hk : Bl st d K k) : Bl st d K (consumeNumber cr c k) := by
  refine Bl.bind (peekByte_bl hr) fun r => Bl.bind Bl.unwrap fun b => Bl.bind hcr fun _ => Bl.bind ?_ fun r => ?_
  · intro s hs
    have h := consumeJsonNumber_bl (numberNext_bl hc hk) (fuel s) b (s, 0) hs
    unfold Wp at *
    dsimp only at h ⊢
    cases h1 : (JsonNumber.consumeJsonNumber (numberNext c k) .outOfFuel (fuel s) b).run (s, 0) with
    | ok a t => rw [h1] at h; exact h
    | err e t => rw [h1] at h; exact h
  · rcases r with ⟨_ | c, n⟩
    · exact Bl.syn hn
    · exact Bl.pure _
end

omit hr in
theorem onValueEnd_bl : Bl st d K onValueEnd := by
  intro s hs
  unfold onValueEnd
  rcases s with ⟨c, k, e, m, stk, sr, l, cl, b, pa, se⟩
  rcases pa with _ | _ | ⟨_ | _, pa⟩ <;> rcases stk with _ | ⟨_ | _, stk⟩ <;> first | exact ⟨rfl, rfl⟩ | exact ⟨trivial, hs⟩

omit hr in
theorem onContainerEnd_bl : Bl st d Kt onContainerEnd := by
  have := (onValueEnd_bl (st := st) (d := d)).toT
  unfold onContainerEnd; bl

theorem finishNumber_bl (hn : d.numbers = true) {n : Nat} : Bl st d K (finishNumber n) :=
  Bl.bind Bl.adv fun _ => Bl.bind (sep_bl hr hn) fun _ => onValueEnd_bl

theorem strConsume_bl {len : Nat} : ∀ bs sr out, Bl st d K (strConsume len bs sr out)
  | [], _, _ => Bl.pure _
  | b :: bs, sr, out => by
    have ih := fun sr out => strConsume_bl (len := len) bs sr out
    unfold strConsume; bl <;> exact ih _ _

theorem strReadLoop_bl (hs : d.strings = true) {len : Nat} : ∀ n sr out, Bl st d K (strReadLoop len n sr out)
  | 0, _, _ => by unfold strReadLoop; bl
  | n + 1, sr, out => by
    have ih := fun sr out => strReadLoop_bl hs (len := len) n sr out
    have h := fun bs sr out => strConsume_bl (st := st) hr (len := len) bs sr out
    have := strBytes_bl (st := st) hr hs; have := onValueEnd_bl (st := st) (d := d)
    unfold strReadLoop; bl <;> first | exact h _ _ _ | exact ih _ _

theorem strReadsOk_bl (hs : d.strings = true) : ∀ ls sr, Bl st d K (strReadsOk ls sr)
  | [], _ => Bl.pure _
  | l :: ls, sr => by
    have ih := fun sr => strReadsOk_bl hs ls sr
    have h := fun n sr out => strReadLoop_bl (st := st) hr hs (len := l) n sr out
    have : Bl st d K (strDrain l sr) := by unfold strDrain; bl
    have : Bl st d K (strReadImpl l sr) := by unfold strReadImpl; bl; exact h _ _ _
    unfold strReadsOk; bl; exact ih _

theorem trailing_bl (hx : d.trailing = true) : Bl st d K consumeTrailingWhitespace := by
  have := ws_bl (st := st) (k := none) hr nofun
  unfold consumeTrailingWhitespace; bl

variable (ht : d.tokens = true)
include ht

/-- has_next in all states -/
theorem hasNext_bl : Bl st d K hasNext := by
  intro s hs
  unfold hasNext
  refine Wp.get (Wp.ite (fun _ => ⟨trivial, hs⟩) fun _ => ?_)
  refine Wp.bind' (P := fun _ s' => K s s') ?_ fun o s1 h1 => ?_
  · refine Wp.ite (fun h => ?_) fun h => ?_
    · exact Wp.ite (fun _ => ⟨trivial, hs⟩) fun _ => Wp.ite (fun _ => ⟨trivial, hs⟩) fun _ => pio_bl hr ht s hs
    · refine Wp.bind' (pi_inside hr ht hs ?_) fun p s1 h1 => Wp.pure h1
      intro hx
      rw [hx] at h
      exact h rfl
  · have hs1 : s1.settings = st := h1.1.trans hs
    cases o with
    | none => exact h1
    | some p => exact Wp.get (Wp.ite (fun _ => ⟨trivial, hs1⟩) fun _ => h1)

theorem endArray_bl (hm : d.structures .moreElementsThanExpected = true) : Bl st d Kt endArray := by
  intro s hs
  unfold endArray
  refine Wp.get (Wp.ite (fun _ => ⟨trivial, hs⟩) fun h => ?_)
  refine Wp.bind' (pi_inside hr ht hs ?_) fun p s1 h1 => ?_
  · intro hx
    unfold isInArray at h
    rw [hx] at h
    exact h rfl
  · have hs1 : s1.settings = st := h1.1.trans hs
    refine Wp.ite (fun _ => ⟨hm, hs1⟩) fun _ => ?_
    exact (Bl.bind consumePeeked_bl.toT (fun _ => onContainerEnd_bl) s1 hs1).post fun _ s2 h2 => Eq.trans h2 h1.1

theorem endObject_bl (hm : d.structures .moreElementsThanExpected = true) : Bl st d Kt endObject := by
  intro s hs
  unfold endObject
  refine Wp.get (Wp.ite (fun _ => ⟨trivial, hs⟩) fun h => Wp.ite (fun _ => ⟨trivial, hs⟩) fun _ => ?_)
  refine Wp.bind' (pi_inside hr ht hs ?_) fun p s1 h1 => ?_
  · intro hx
    unfold isInObject at h
    rw [hx] at h
    exact h rfl
  · have hs1 : s1.settings = st := h1.1.trans hs
    refine Wp.ite (fun _ => ⟨hm, hs1⟩) fun _ => ?_
    exact (Bl.bind consumePeeked_bl.toT (fun _ => Bl.bind (Bl.modify (g := fun s => { s with expectsMemberName := false }) fun _ => rfl) fun _ => onContainerEnd_bl) s1 hs1).post fun _ s2 h2 => Eq.trans h2 h1.1

variable (hf : d.structures .fewerElementsThanExpected = true)
include hf

theorem peek_bl : Bl st d K peek := by
  have := pi_bl (st := st) hr ht hf
  have h := fun k => mapPeeked_bl (st := st) hf (k := k)
  unfold peek; bl; exact h _

theorem begin_bl {t : ValueType} {v : StackValue} (hw : d.wants t = true) (hc : d.starts = true) : Bl st d Kt (onContainerStart t v) := by
  have := (sev_bl (st := st) hr ht hf (t := t) (c := true) hw fun _ => hc).toT
  unfold onContainerStart; bl

theorem beginArray_bl (hw : d.wants .array = true) (hc : d.starts = true) : Bl st d Kt beginArray := by
  have := begin_bl (st := st) hr ht hf (v := .array) hw hc
  unfold beginArray; bl

theorem beginObject_bl (hw : d.wants .object = true) (hc : d.starts = true) : Bl st d Kt beginObject := by
  have := begin_bl (st := st) hr ht hf (v := .object) hw hc
  unfold beginObject; bl

theorem beforeName_bl : Bl st d K beforeName := by
  have := hasNext_bl (st := st) hr ht
  have := consumePeeked_bl (st := st) (d := d)
  unfold beforeName; bl

omit hr ht hf in
theorem setPathName_bl {n : Text} : Bl st d K (setPathName n) := by
  intro s hs
  unfold setPathName
  rcases s with ⟨c, k, e, m, stk, sr, l, cl, b, pa, se⟩
  rcases pa with _ | _ | ⟨_ | _, pa⟩ <;> first | exact ⟨rfl, rfl⟩ | exact ⟨trivial, hs⟩

section
variable (hs : d.strings = true)
include hs

theorem nextNameOwned_bl : Bl st d K nextNameOwned := by
  have := beforeName_bl (st := st) hr ht hf
  have := readString_bl (st := st) hr hs (b := false)
  have h := fun n => setPathName_bl (st := st) (d := d) (n := n)
  unfold nextNameOwned; bl; exact h _

theorem nextName_bl : Bl st d K nextName := by
  have := beforeName_bl (st := st) hr ht hf
  have := readString_bl (st := st) hr hs (b := true)
  have h := fun n => setPathName_bl (st := st) (d := d) (n := n)
  unfold nextName; bl; exact h _

theorem skipName_bl : Bl st d K skipName := by
  have := beforeName_bl (st := st) hr ht hf
  have := readString_bl (st := st) hr hs (b := false)
  have := skipStr_bl (st := st) hr hs
  have h := fun n => setPathName_bl (st := st) (d := d) (n := n)
  unfold skipName; bl; exact h _

theorem nextString_bl (hw : d.wants .string = true) : Bl st d K nextString := by
  have := sev_bl (st := st) hr ht hf (c := false) hw nofun
  have := readString_bl (st := st) hr hs (b := false)
  have := onValueEnd_bl (st := st) (d := d)
  unfold nextString; bl

theorem nextStr_bl (hw : d.wants .string = true) : Bl st d K nextStr := by
  have := sev_bl (st := st) hr ht hf (c := false) hw nofun
  have := readString_bl (st := st) hr hs (b := true)
  have := onValueEnd_bl (st := st) (d := d)
  unfold nextStr; bl

theorem stringReader_bl (hw : d.wants .string = true) {lens : List Nat} : Bl st d K (runOp (.stringReader lens)) := by
  have := sev_bl (st := st) hr ht hf (c := false) hw nofun
  have h : Bl st d K nextStringReader := by unfold nextStringReader; bl
  exact Bl.bind h fun _ => Bl.bind (strReadsOk_bl hr hs _ _) fun _ => Bl.pure _
end

theorem nextBool_bl (hw : d.wants .boolean = true) : Bl st d K nextBool := by
  have := sev_bl (st := st) hr ht hf (c := false) hw nofun
  have := onValueEnd_bl (st := st) (d := d)
  unfold nextBool; bl

theorem nextNull_bl (hw : d.wants .null = true) : Bl st d K nextNull := by
  have := sev_bl (st := st) hr ht hf (c := false) hw nofun
  have := onValueEnd_bl (st := st) (d := d)
  unfold nextNull; bl

theorem readNumberBytes_bl (hw : d.wants .number = true) (hn : d.numbers = true) (hx : d.returnsNumber = true) {b : Bool} : Bl st d K (readNumberBytes b) := by
  unfold readNumberBytes
  refine Bl.bind (sev_bl (st := st) hr ht hf (c := false) hw nofun) fun _ => ?_
  refine Bl.bind (consumeNumber_bl hr hn (Bl.lift hr _) (Bl.lift hr _) (vPeek_bl hr)) fun r => ?_
  refine Bl.get fun s hs => Bl.ite (fun h => ?_) fun _ => ?_
  · refine Bl.bind (Bl.lift hr _) fun _ => Bl.bind (Bl.lift hr _) fun _ => Bl.get fun _ _ => ?_
    refine fun s' hs' => ⟨⟨hx, ?_⟩, hs'⟩
    rw [hs] at h
    exact (Bool.and_eq_true_iff.1 h).1
  · exact Bl.bind (Bl.lift hr _) fun _ => finishNumber_bl hr hn

end

end Verif.Kinds
