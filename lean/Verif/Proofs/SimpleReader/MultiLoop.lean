import Verif.Proofs.SimpleReader.Multi
/-! # The Simple reader API: the main loop of `read_seeked_multi` -/

namespace Verif.SimpleReader
open Reader Json Cursor
open Abs (St RepC)
open SimpleReaderSpec (SKind Ans Env each visit joinAll)

variable {V : Type} {st : Settings} {T : Tops} {b : Meets.Cond} {k : Cur} {fuel : Nat} {env : Env} {v : JVal}

/-! ## Objects -/

theorem findMember_meets (name : Text) : ∀ (ms : List (Text × JVal)) (n : Nat) (last : Text), Inside st fuel k env (ms.map Prod.snd) → ms.length ≤ n →
    SMeets st T b (findMember name n : X V Bool) (.cur (k.push (.names last ms))) (.ok ()) (fun _ a p => match ms.find? fun m => m.1 = name with
      | some m => a = true ∧ ∃ done rest, ms = done ++ (m.1, m.2) :: rest ∧ p = .cur (k.push (.value m.1 m.2 rest))
      | none => a = false ∧ ∃ l, p = .cur (k.push (.names l [])))
  | [], n, l, h, _ => by
    rw [findMember.eq_def]
    exact seq_ok (boolCall_ok (by nofun) (hasNext_object h.str l [])) (Meets.pure ⟨rfl, l, rfl⟩)
  | (name', v) :: ms, 0, l, h, hn => by simp at hn
  | (name', v) :: ms, n + 1, l, h, hn => by
    rw [findMember.eq_def]
    refine seq_ok (boolCall_ok (by nofun) (hasNext_object h.str l ((name', v) :: ms))) ?_
    refine seq_ok (textCall_ok (by nofun) (nextName_object h.str l name' v ms)) ?_
    by_cases hnm : name' = name
    · rw [if_pos hnm]
      refine Meets.pure ?_
      rw [List.find?_cons_of_pos (by simpa using hnm)]
      exact ⟨rfl, [], ms, rfl, rfl⟩
    · rw [if_neg hnm]
      refine seq_ok (unitCall_ok (by nofun) (Inside.member h).skip) ?_
      refine (findMember_meets name ms n name' (Inside.tail h) (by simpa using hn)).mono fun _ a p hp => ?_
      rw [List.find?_cons_of_neg (by simpa using hnm)]
      cases hf : ms.find? fun m => m.1 = name with
      | none => rw [hf] at hp; exact hp
      | some m =>
        rw [hf] at hp
        obtain ⟨h1, done, rest, h2, h3⟩ := hp
        exact ⟨h1, (name', v) :: done, rest, congrArg _ h2, h3⟩

theorem skipMembers_meets : ∀ (ms : List (Text × JVal)) (n : Nat) (last : Text), Inside st fuel k env (ms.map Prod.snd) → ms.length ≤ n →
    SMeets st T b (skipMembers n : X V Unit) (.cur (k.push (.names last ms))) (.ok ()) (fun _ _ p => ∃ l, p = .cur (k.push (.names l [])))
  | [], n, l, h, _ => by
    rw [skipMembers.eq_def]
    exact seq_ok (boolCall_ok (by nofun) (hasNext_object h.str l [])) (Meets.pure ⟨l, rfl⟩)
  | (name', v) :: ms, 0, l, h, hn => by simp at hn
  | (name', v) :: ms, n + 1, l, h, hn => by
    rw [skipMembers.eq_def]
    refine seq_ok (boolCall_ok (by nofun) (hasNext_object h.str l ((name', v) :: ms))) ?_
    refine seq_ok (unitCall_ok (by nofun) (skipName_object h.str l name' v ms)) ?_
    refine seq_ok (unitCall_ok (by nofun) (Inside.member h).skip) ?_
    exact skipMembers_meets ms n name' (Inside.tail h) (by simpa using hn)

theorem checkNotEmpty_ok {α β γ : Type} {p : Place} {empty : Bool} {allowEmpty : Bool} {op : X V α} {f : Unit → X V β} {ans : Ans γ} {P : γ → β → Place → Prop} {k : Cur} (hp : p = .cur k)
    (hn : Cursor.step st k .hasNext = .ok (.bool !empty) k) (he : (empty && !allowEmpty) = false) (hf : SMeets st T b (f ()) p ans P) : SMeets st T b (checkNotEmpty allowEmpty op >>= f) p ans P := by
  subst hp
  refine seq_ok (x := ()) (p' := .cur k) ?_ hf
  unfold checkNotEmpty
  cases allowEmpty with
  | true => exact Meets.pure ⟨rfl, rfl⟩
  | false =>
    cases empty with
    | true => cases he
    | false => exact seq_ok (boolCall_ok (by nofun) hn) (Meets.pure ⟨rfl, rfl⟩)

theorem checkNotEmpty_err {α β γ : Type} {allowEmpty : Bool} {empty : Bool} {op : X V α} {f : Unit → X V β} {P : γ → β → Place → Prop} {e : SKind} (hn : Cursor.step st k .hasNext = .ok (.bool !empty) k)
    (he : (empty && !allowEmpty) = true) (hop : SMeets st T b op (.cur k) (.err e : Ans Unit) (fun _ _ _ => True)) : SMeets st T b (checkNotEmpty allowEmpty op >>= f) (.cur k) (.err e) P := by
  cases empty with
  | false => cases he
  | true =>
    cases allowEmpty with
    | true => cases he
    | false =>
      refine err_bind ?_
      refine seq_ok (boolCall_ok (by nofun) hn) ?_
      refine Meets.attempt (l := fun _ => (.misuse : Ans Unit)) hop (fun _ _ _ _ h => nomatch h) fun _ y d' => ⟨y, rfl, rfl⟩

/-! ## The main loop -/

variable {path : List PartialPath} {f : V → X V (V × Bool)} {g : V → JVal → Ans V}

/-- moving up -/
def ascend (fuel : Nat) (path : List PartialPath) (f : V → X V (V × Bool)) (n i : Nat) (s : V × Bool) : X V (V × Bool) :=
  if i = 0 then pure s else multiLoop fuel path f n (i - 1) false s.2 s.1

/-- moving down -/
def descend (fuel : Nat) (path : List PartialPath) (f : V → X V (V × Bool)) (n i : Nat) (s : V × Bool) : X V (V × Bool) :=
  if path.length ≤ i + 1 then multiMatch fuel path f (i + 1) s.1 >>= fun y => multiLoop fuel path f n i false true y
  else multiLoop fuel path f n (i + 1) true s.2 s.1

theorem multiLoop_step (n i : Nat) (down : Bool) (s : V × Bool) (p : PartialPath) (h : path[i]? = some p) :
    multiLoop fuel path f (n + 1) i down s.2 s.1 = movesDown fuel down p >>= fun b => if b = true then descend fuel path f n i s else ascend fuel path f n i s := by
  obtain ⟨hi, rfl⟩ := List.getElem?_eq_some_iff.1 h
  rw [multiLoop_succ _ _ _ _ _ _ _ _ hi]
  rfl

theorem movesUp_array (e : Bool) : (movesDown fuel false (.allArrayItems e) : X V Bool) = boolCall .hasNext >>= fun b => if b = true then pure true else unitCall .endArray >>= fun _ => pure false := rfl
theorem movesDown_array (e : Bool) : (movesDown fuel true (.allArrayItems e) : X V Bool) = unitCall .beginArray >>= fun _ => checkNotEmpty e peek >>= fun _ => movesDown fuel false (.allArrayItems e) := rfl
theorem movesUp_object (e : Bool) : (movesDown fuel false (.allObjectMembers e) : X V Bool) = boolCall .hasNext >>= fun b =>
    if b = true then unitCall .skipName >>= fun _ => pure true else unitCall .endObject >>= fun _ => pure false := rfl
theorem movesDown_object (e : Bool) : (movesDown fuel true (.allObjectMembers e) : X V Bool) =
    unitCall .beginObject >>= fun _ => checkNotEmpty e (unitCall .skipName) >>= fun _ => movesDown fuel false (.allObjectMembers e) := rfl

theorem bind_pure {α : Type} (m : X V α) : m >>= pure = m := by
  refine CT.ext fun d => ?_
  rw [CT.run_bind]
  refine Eq.trans ?_ (Calls.bind_ret (m.run d))
  congr 1
  funext r
  match r with
  | (.ok a, s') => rfl
  | (.error e, s') => rfl

theorem multiMatch_one {i : Nat} {p : PartialPath} {x : V} (h : path[i]? = some p) (hp : (∃ q, p = .jsonPath q) ∨ ∃ q, p = .optionalObjectMember q) :
    multiMatch fuel path f (i + 1) x = readValue (f x) := by
  unfold multiMatch
  rw [Nat.add_sub_cancel, h]
  rcases hp with ⟨q, rfl⟩ | ⟨q, rfl⟩ <;> exact bind_pure _

/-- What is demanded in front of the value `v` when moving down with the pieces `ps`, which begin at the index `i`; `m` is the number of iterations which are left for the
code which is executed afterwards -/
def Down (st : Settings) (T : Tops) (b : Meets.Cond) (fuel : Nat) (env : Env) (path : List PartialPath) (f : V → X V (V × Bool)) (g : V → JVal → Ans V) (i : Nat) (ps : List PartialPath) : Prop :=
  ∀ {k : Cur} {v : JVal} {n m : Nat} {s : V × Bool} {τ : Type} {l : V × Bool → Ans τ} {P : τ → V × Bool → Place → Prop}, InFront st fuel k v → k.frames.length + (ps.map plen).sum = env.opened →
    weight v + m ≤ n → (∀ n' s', m ≤ n' → SMeets st T b (ascend fuel path f n' i s') (.cur k.advance) (l s') P) →
    SMeets st T b (multiLoop fuel path f n i true s.2 s.1) (.cur k) (outcome g (pvisit ps v) s >>= l) P

theorem Here.front (h : Here st fuel k env v) : InFront st fuel k v := ⟨h.can, h.next, rfl, h.opened ▸ h.fits, h.fuel, rfl⟩

theorem InFront.here (h : InFront st fuel k v) (ho : k.frames.length = env.opened) (hs : env.st = st) : Here st fuel k env v := ⟨h.can, h.next, ho.symm, ho ▸ h.fits, h.fuel, hs⟩

section
variable {i : Nat} {p : PartialPath} {ps : List PartialPath} (hpath : path.drop i = p :: ps) (henv : env.st = st)
  (hf : ∀ x k v, Here st fuel k env v → SMeets st T b (readValue (f x)) (.cur k) (g x v) (To k.advance)) (hD : ps ≠ [] → Down st T b fuel env path f g (i + 1) ps)

theorem drop_get (hpath : path.drop i = p :: ps) : path[i]? = some p := by
  have h := congrArg (·[0]?) hpath
  simpa using h

theorem drop_length (hpath : path.drop i = p :: ps) : path.length ≤ i + 1 ↔ ps = [] := by
  have h := congrArg List.length hpath
  rw [List.length_drop, List.length_cons] at h
  cases ps with
  | nil => simp at h ⊢; omega
  | cons => simp at h ⊢; omega

include hpath henv hf hD

/-- a value which is reached by a piece which leads to just one value -/
theorem descend_one (hp : (∃ q, p = .jsonPath q) ∨ ∃ q, p = .optionalObjectMember q) {n m : Nat} {s : V × Bool} {τ : Type} {l : V × Bool → Ans τ} {P : τ → V × Bool → Place → Prop}
    (h : InFront st fuel k v) (ho : k.frames.length + (ps.map plen).sum = env.opened) (hn : weight v + m ≤ n)
    (hc : ∀ n' s', m ≤ n' → SMeets st T b (multiLoop fuel path f n' i false s'.2 s'.1) (.cur k.advance) (l s') P) :
    SMeets st T b (descend fuel path f n i s) (.cur k) (outcome g (pvisit ps v) s >>= l) P := by
  unfold descend
  by_cases hps : ps = []
  · subst hps
    rw [if_pos ((drop_length hpath).2 rfl), pvisit, outcome_one]
    rw [multiMatch_one (drop_get hpath) hp]
    refine (hf s.1 k v (h.here (by simpa using ho) henv)).bind fun y a q hq _ => ?_
    obtain ⟨rfl, rfl⟩ := hq
    exact hc n (a, true) (by omega)
  · rw [if_neg (fun h => hps ((drop_length hpath).1 h))]
    refine hD hps h ho hn fun n' s' hn' => ?_
    have := hc n' s' hn'
    unfold ascend
    rw [if_neg (by omega), Nat.add_sub_cancel]
    exact this

/-- the remaining items of an array -/
theorem items_meets {e : Bool} (hp : p = .allArrayItems e) {m : Nat} {τ : Type} {l : V × Bool → Ans τ} {P : τ → V × Bool → Place → Prop} (ho : k.frames.length + 1 + (ps.map plen).sum = env.opened)
    (hc : ∀ n' s', m ≤ n' → SMeets st T b (ascend fuel path f n' i s') (.cur k.advance) (l s') P) :
    ∀ (vs : List JVal) (n j : Nat) (s : V × Bool), Inside st fuel k ⟨st, k.frames.length + 1⟩ vs → weightItems vs + m + 1 ≤ n →
      SMeets st T b (multiLoop fuel path f n i false s.2 s.1) (.cur (k.push (.array j vs))) (outcome g (joinAll (vs.map (pvisit ps))) s >>= l) P := by
  have hnil : ∀ (n : Nat) j (s : V × Bool), Inside st fuel k ⟨st, k.frames.length + 1⟩ [] → m + 1 ≤ n → SMeets st T b (multiLoop fuel path f n i false s.2 s.1) (.cur (k.push (.array j []))) (l s) P := by
    intro n j s h hn
    obtain ⟨n, rfl⟩ : ∃ n', n = n' + 1 := ⟨n - 1, by omega⟩
    rw [multiLoop_step n i false s p (drop_get hpath), hp]
    rw [movesUp_array, CT.bind_assoc]
    refine seq_ok (boolCall_ok (by nofun) (hasNext_array h.str j [])) ?_
    dsimp only [List.isEmpty_nil, Bool.not_true]
    rw [if_neg (by nofun), CT.bind_assoc]
    refine seq_ok (unitCall_ok (by nofun) (endArray_step h.str j)) ?_
    rw [CT.pure_bind, if_neg (by nofun)]
    exact hc n s (by omega)
  intro vs
  induction vs with
  | nil =>
    intro n j s h hn
    rw [List.map_nil, outcome_nil]
    exact hnil n j s h (by rw [weightItems] at hn; omega)
  | cons w ws ih =>
    intro n j s h hn
    obtain ⟨n, rfl⟩ : ∃ n', n = n' + 1 := ⟨n - 1, by omega⟩
    rw [weightItems] at hn
    rw [multiLoop_step n i false s p (drop_get hpath), hp]
    rw [movesUp_array, CT.bind_assoc]
    refine seq_ok (boolCall_ok (by nofun) (hasNext_array h.str j (w :: ws))) ?_
    dsimp only [List.isEmpty_cons]
    rw [if_pos (c := (!false) = true) rfl, CT.pure_bind, if_pos rfl]
    unfold descend
    by_cases hps : ps = []
    · subst hps
      rw [if_pos ((drop_length hpath).2 rfl), outcome_last]
      unfold multiMatch
      rw [CT.bind_assoc, Nat.add_sub_cancel, drop_get hpath, hp]
      have hi : Inside st fuel k env (w :: ws) := ⟨h.str, by simpa using ho.symm, by simpa [← ho] using h.fits, h.weight, h.length, henv⟩
      refine (hf s.1 _ w hi.item).bind fun y a q hq _ => ?_
      obtain ⟨rfl, rfl⟩ := hq
      refine (itemsLoop_meets hf ws fuel (j + 1) a hi.tail hi.tail.length).bind fun y z q hq _ => ?_
      obtain ⟨rfl, j', rfl⟩ := hq
      exact hnil n j' (z, true) (h.sub nofun (by simp)) (by omega)
    · rw [if_neg (fun h => hps ((drop_length hpath).1 h)), List.map_cons, outcome_join]
      refine hD hps (m := weightItems ws + m + 1) h.item.front ho (by omega) fun n' s' hn' => ?_
      unfold ascend
      rw [if_neg (by omega), Nat.add_sub_cancel]
      exact ih n' (j + 1) s' h.tail hn'

/-- the remaining members of an object -/
theorem members_meets {e : Bool} (hp : p = .allObjectMembers e) {m : Nat} {τ : Type} {l : V × Bool → Ans τ} {P : τ → V × Bool → Place → Prop} (ho : k.frames.length + 1 + (ps.map plen).sum = env.opened)
    (hc : ∀ n' s', m ≤ n' → SMeets st T b (ascend fuel path f n' i s') (.cur k.advance) (l s') P) :
    ∀ (ms : List (Text × JVal)) (n : Nat) (last : Text) (s : V × Bool), Inside st fuel k ⟨st, k.frames.length + 1⟩ (ms.map Prod.snd) → weightItems (ms.map Prod.snd) + m + 1 ≤ n →
      SMeets st T b (multiLoop fuel path f n i false s.2 s.1) (.cur (k.push (.names last ms))) (outcome g (joinAll ((ms.map Prod.snd).map (pvisit ps))) s >>= l) P := by
  have hnil : ∀ (n : Nat) j (s : V × Bool), Inside st fuel k ⟨st, k.frames.length + 1⟩ [] → m + 1 ≤ n → SMeets st T b (multiLoop fuel path f n i false s.2 s.1) (.cur (k.push (.names j []))) (l s) P := by
    intro n j s h hn
    obtain ⟨n, rfl⟩ : ∃ n', n = n' + 1 := ⟨n - 1, by omega⟩
    rw [multiLoop_step n i false s p (drop_get hpath), hp]
    rw [movesUp_object, CT.bind_assoc]
    refine seq_ok (boolCall_ok (by nofun) (hasNext_object h.str j [])) ?_
    dsimp only [List.isEmpty_nil, Bool.not_true]
    rw [if_neg (by nofun), CT.bind_assoc]
    refine seq_ok (unitCall_ok (by nofun) (endObject_step h.str j)) ?_
    rw [CT.pure_bind, if_neg (by nofun)]
    exact hc n s (by omega)
  intro ms
  induction ms with
  | nil =>
    intro n j s h hn
    rw [List.map_nil, List.map_nil, outcome_nil]
    exact hnil n j s h (by rw [List.map_nil, weightItems] at hn; omega)
  | cons x ws ih =>
    obtain ⟨name, w⟩ := x
    intro n j s h hn
    obtain ⟨n, rfl⟩ : ∃ n', n = n' + 1 := ⟨n - 1, by omega⟩
    rw [List.map_cons, weightItems] at hn
    rw [multiLoop_step n i false s p (drop_get hpath), hp]
    rw [movesUp_object, CT.bind_assoc]
    refine seq_ok (boolCall_ok (by nofun) (hasNext_object h.str j ((name, w) :: ws))) ?_
    dsimp only [List.isEmpty_cons]
    rw [if_pos (c := (!false) = true) rfl, CT.bind_assoc]
    refine seq_ok (unitCall_ok (by nofun) (skipName_object h.str j name w ws)) ?_
    rw [CT.pure_bind, if_pos rfl]
    unfold descend
    by_cases hps : ps = []
    · subst hps
      rw [if_pos ((drop_length hpath).2 rfl), List.map_cons, outcome_last]
      unfold multiMatch
      rw [CT.bind_assoc, Nat.add_sub_cancel, drop_get hpath, hp]
      have hi : Inside st fuel k env (w :: ws.map Prod.snd) := ⟨h.str, by simpa using ho.symm, by have := h.fits; simpa [← ho] using this, h.weight, h.length, henv⟩
      refine (hf s.1 _ w hi.member).bind fun y a q hq _ => ?_
      obtain ⟨rfl, rfl⟩ := hq
      refine (membersLoop_meets hf ws fuel name a hi.tail (by simpa using hi.tail.length)).bind fun y z q hq _ => ?_
      obtain ⟨rfl, j', rfl⟩ := hq
      exact hnil n j' (z, true) (h.sub nofun (by simp)) (by omega)
    · rw [if_neg (fun h => hps ((drop_length hpath).1 h)), List.map_cons, List.map_cons, outcome_join]
      refine hD hps (m := weightItems (ws.map Prod.snd) + m + 1) (Inside.member h).front ho (by omega) fun n' s' hn' => ?_
      unfold ascend
      rw [if_neg (by omega), Nat.add_sub_cancel]
      exact ih n' name s' (Inside.tail h) hn'

end

theorem wrong_array (h : Here st fuel k env v) (hv : ∀ vs, v ≠ .arr vs) : stepAnswer (Cursor.step st k .beginArray) = .err (.type .array (typeOf v)) := by
  unfold Cursor.step
  dsimp only
  rw [h.withValue]
  cases v with
  | arr vs => exact absurd rfl (hv vs)
  | _ => rfl

theorem wrong_object (h : Here st fuel k env v) (hv : ∀ ms, v ≠ .obj ms) : stepAnswer (Cursor.step st k .beginObject) = .err (.type .object (typeOf v)) := by
  unfold Cursor.step
  dsimp only
  rw [h.withValue]
  cases v with
  | obj vs => exact absurd rfl (hv vs)
  | _ => rfl

/-- moving down at the index `i` -/
theorem down_meets (henv : env.st = st) (hf : ∀ x k v, Here st fuel k env v → SMeets st T b (readValue (f x)) (.cur k) (g x v) (To k.advance)) (hsec : .jsonPath [] ∉ path) :
    ∀ (ps : List PartialPath) (i : Nat), path.drop i = ps → ps ≠ [] → Down st T b fuel env path f g i ps := by
  intro ps
  induction ps with
  | nil => intro i _ h; exact absurd rfl h
  | cons p ps ih =>
    intro i hpath _ k v n m s τ l P h ho hn hc
    have hD : ps ≠ [] → Down st T b fuel env path f g (i + 1) ps := by
      refine fun h => ih (i + 1) ?_ h
      rw [← List.drop_drop, hpath]
      rfl
    have hget := drop_get hpath
    have hw : 1 ≤ weight v := by cases v <;> rw [weight] <;> omega
    obtain ⟨n, rfl⟩ : ∃ n', n = n' + 1 := ⟨n - 1, by omega⟩
    rw [multiLoop_step n i true s p hget]
    rw [List.map_cons, List.sum_cons] at ho
    cases p with
    | jsonPath q =>
      have hq : q ≠ [] := by
        rintro rfl
        exact hsec (List.mem_of_getElem? hget)
      have hq1 : 1 ≤ q.length := List.length_pos_iff.2 hq
      rw [pvisit, show (movesDown fuel true (.jsonPath q) : X V Bool) = unitCall (.seekTo q) >>= fun _ => pure true from rfl, CT.bind_assoc]
      cases hfd : find q v with
      | error e => exact err_bind (unitCall_err (by nofun) (h.seek_err hfd) (find_ne_other q hfd))
      | ok w =>
        obtain ⟨c, h1, h2, h3⟩ := h.seek hfd
        refine seq_ok (unitCall_ok (by nofun) h1) ?_
        rw [CT.pure_bind, if_pos rfl]
        have hwt := find_weight q hfd
        refine descend_one hpath henv hf hD (.inl ⟨q, rfl⟩) (m := m + 1) h2.front (by rw [← h2.opened]; exact (Nat.add_assoc ..).trans ho) (by omega) fun n' s' hn' => ?_
        obtain ⟨n', rfl⟩ : ∃ n'', n' = n'' + 1 := ⟨n' - 1, by omega⟩
        rw [multiLoop_step n' i false s' _ hget, show (movesDown fuel false (.jsonPath q) : X V Bool) = unitCall (.seekBack q) >>= fun _ => pure false from rfl, CT.bind_assoc]
        refine seq_ok (unitCall_ok (by nofun) h3) ?_
        rw [CT.pure_bind, if_neg (by nofun)]
        exact hc n' s' (by omega)
    | allArrayItems e =>
      rw [movesDown_array, CT.bind_assoc]
      have hwrong : (∀ vs, v ≠ .arr vs) → pvisit (.allArrayItems e :: ps) v = ([], some (.type .array (typeOf v))) := by
        intro hv
        cases v with
        | arr vs => exact absurd rfl (hv vs)
        | _ => rfl
      by_cases hv : ∀ vs, v ≠ .arr vs
      · rw [hwrong hv, outcome_err]
        exact err_bind (unitCall_err (by nofun) (wrong_array h hv) (by nofun))
      obtain ⟨vs, rfl⟩ : ∃ vs, v = .arr vs := by
        refine Classical.byContradiction fun h => hv fun vs hvs => h ⟨vs, hvs⟩
      obtain ⟨h1, h2⟩ := h.array
      refine seq_ok (unitCall_ok (by nofun) h1) ?_
      rw [CT.bind_assoc, pvisit]
      cases he : vs.isEmpty && !e with
      | true =>
        rw [if_pos rfl, outcome_err]
        refine checkNotEmpty_err (hasNext_array h.str 0 vs) he (peek_err ?_ (by nofun))
        cases vs with
        | cons => cases he
        | nil =>
          unfold Cursor.step Cursor.withValue
          dsimp only
          rw [show Cur.canValue st.allowMultipleTopLevel (k.push (.array 0 [])) = true by unfold Cur.canValue Cur.push; dsimp only; rw [h.str]; rfl]
          rfl
      | false =>
        rw [if_neg (by nofun)]
        refine checkNotEmpty_ok rfl (hasNext_array h.str 0 vs) he ?_
        have := items_meets hpath henv hf hD rfl (by rw [Nat.add_assoc]; exact ho) hc vs (n + 1) 0 s h2 (by rw [weight] at hn; omega)
        rw [multiLoop_step n i false s _ hget] at this
        exact this
    | optionalObjectMember name =>
      rw [show (movesDown fuel true (.optionalObjectMember name) : X V Bool) = unitCall .beginObject >>= fun _ => findMember name fuel >>= fun b =>
        if b = true then pure true else unitCall .endObject >>= fun _ => pure false from rfl, CT.bind_assoc]
      have hwrong : (∀ ms, v ≠ .obj ms) → pvisit (.optionalObjectMember name :: ps) v = ([], some (.type .object (typeOf v))) := by
        intro hv
        cases v with
        | obj vs => exact absurd rfl (hv vs)
        | _ => rfl
      by_cases hv : ∀ ms, v ≠ .obj ms
      · rw [hwrong hv, outcome_err]
        exact err_bind (unitCall_err (by nofun) (wrong_object h hv) (by nofun))
      obtain ⟨ms, rfl⟩ : ∃ ms, v = .obj ms := by
        refine Classical.byContradiction fun h => hv fun vs hvs => h ⟨vs, hvs⟩
      obtain ⟨h1, h2⟩ := h.object
      refine seq_ok (unitCall_ok (by nofun) h1) ?_
      rw [CT.bind_assoc, pvisit]
      refine Meets.bind' (ans := (.ok () : Ans Unit)) (findMember_meets name ms fuel _ h2 (by simpa using h2.length)) ⟨fun _ => _, rfl, fun _ a q hq _ => ?_⟩
      cases hfd : ms.find? fun m => m.1 = name with
      | none =>
        rw [hfd] at hq
        obtain ⟨rfl, last, rfl⟩ := hq
        rw [if_neg (by nofun), CT.bind_assoc]
        refine seq_ok (unitCall_ok (by nofun) (endObject_step h.str last)) ?_
        rw [CT.pure_bind, if_neg (by nofun)]
        show SMeets st T b _ _ (l (s.1, s.2 || false)) _
        rw [Bool.or_false]
        exact hc n s (by omega)
      | some x =>
        rw [hfd] at hq
        obtain ⟨rfl, done, rest, rfl, rfl⟩ := hq
        rw [if_pos rfl, CT.pure_bind, if_pos rfl]
        have h3 : Inside st fuel k (Env.inside ⟨st, k.frames.length⟩ 1) (x.2 :: rest.map Prod.snd) := h2.sub (fun y hy => by rw [List.map_append]; exact List.mem_append_right _ hy) (by simp)
        have hwt : weight x.2 + 1 + weightItems (rest.map Prod.snd) + 2 ≤ weight (.obj (done ++ (x.1, x.2) :: rest)) := by
          rw [weight, weightMembers_map, List.map_append, List.map_cons]
          have : ∀ a c : List JVal, weightItems c ≤ weightItems (a ++ c) := by
            intro a c
            induction a with
            | nil => exact Nat.le_refl _
            | cons y a ih => rw [List.cons_append, weightItems]; omega
          have := this (done.map Prod.snd) (x.2 :: rest.map Prod.snd)
          rw [weightItems] at this
          dsimp only
          omega
        refine descend_one hpath henv hf hD (.inr ⟨name, rfl⟩) (m := m + 1) h3.member.front ((Nat.add_assoc ..).trans ho) (by omega) fun n' s' hn' => ?_
        obtain ⟨n', rfl⟩ : ∃ n'', n' = n'' + 1 := ⟨n' - 1, by omega⟩
        rw [multiLoop_step n' i false s' _ hget, show (movesDown fuel false (.optionalObjectMember name) : X V Bool) =
          skipMembers fuel >>= fun _ => unitCall .endObject >>= fun _ => pure false from rfl, CT.bind_assoc]
        refine Meets.bind' (ans := (.ok () : Ans Unit)) (skipMembers_meets rest fuel x.1 h3.tail (by simpa using h3.tail.length)) ⟨fun _ => _, rfl, fun _ a q hq _ => ?_⟩
        obtain ⟨last, rfl⟩ := hq
        rw [CT.bind_assoc]
        refine seq_ok (unitCall_ok (by nofun) (endObject_step h.str last)) ?_
        rw [CT.pure_bind, if_neg (by nofun)]
        exact hc n' s' (by omega)
    | allObjectMembers e =>
      rw [movesDown_object, CT.bind_assoc]
      have hwrong : (∀ ms, v ≠ .obj ms) → pvisit (.allObjectMembers e :: ps) v = ([], some (.type .object (typeOf v))) := by
        intro hv
        cases v with
        | obj vs => exact absurd rfl (hv vs)
        | _ => rfl
      by_cases hv : ∀ ms, v ≠ .obj ms
      · rw [hwrong hv, outcome_err]
        exact err_bind (unitCall_err (by nofun) (wrong_object h hv) (by nofun))
      obtain ⟨ms, rfl⟩ : ∃ ms, v = .obj ms := by
        refine Classical.byContradiction fun h => hv fun vs hvs => h ⟨vs, hvs⟩
      obtain ⟨h1, h2⟩ := h.object
      refine seq_ok (unitCall_ok (by nofun) h1) ?_
      rw [CT.bind_assoc, pvisit]
      cases he : ms.isEmpty && !e with
      | true =>
        rw [if_pos rfl, outcome_err]
        refine checkNotEmpty_err (hasNext_object h.str _ ms) he (unitCall_err (by nofun) ?_ (by nofun))
        cases ms with
        | cons => cases he
        | nil =>
          unfold Cursor.step Cur.push
          dsimp only
          rw [if_neg (by rw [h.str]; exact Bool.false_ne_true)]
          rfl
      | false =>
        rw [if_neg (by nofun)]
        refine checkNotEmpty_ok rfl (hasNext_object h.str _ ms) he ?_
        have := members_meets hpath henv hf hD rfl (by rw [Nat.add_assoc]; exact ho) hc ms (n + 1) ['<', '?', '>'] s h2 (by rw [weight, weightMembers_map] at hn; omega)
        rw [multiLoop_step n i false s _ hget] at this
        exact this

/-- `read_seeked_multi` -/
theorem seekedMulti_meets (path : List MultiPiece) (atLeastOne : Bool) (x : V) (h : Here st fuel k env v)
    (hf : ∀ x k w, Here st fuel k (env.inside path.length) w → SMeets st T b (readValue (f x)) (.cur k) (g x w) (To k.advance)) :
    SMeets st T b (readSeekedMulti fuel path atLeastOne f x) (.cur k) (do
      let y ← each g x (visit path v).1
      match (visit path v).2 with
      | some e => .err (.reader e)
      | none => if atLeastOne && (visit path v).1.isEmpty then .err .noMatch else .ok y) (To k.advance) := by
  unfold readSeekedMulti
  by_cases hp : path = []
  · subst hp
    rw [if_pos (c := ([] : List MultiPiece).isEmpty = true) rfl, visit]
    dsimp only [List.isEmpty_cons]
    have h1 := hf x k v h
    have h2 : (do
        let y ← each g x [v]
        if (atLeastOne && false) = true then .err .noMatch else .ok y : Ans V) = g x v := by
      rw [Bool.and_false, each, answer_assoc]
      exact answer_ok _
    rw [h2]
    exact h1
  · rw [if_neg (fun h => hp (List.isEmpty_iff.1 h))]
    have hne : convertPath path ≠ [] := by
      intro hc
      have := convertLoop_plen path none
      rw [show convertLoop [] none path = [] from hc] at this
      simp only [List.map_nil, List.sum_nil, Option.getD_none, List.length_nil, Nat.zero_add] at this
      exact hp (List.eq_nil_of_length_eq_zero this.symm)
    have hd := down_meets (path := convertPath path) (env := env.inside path.length) h.st hf (convertLoop_sections path none nofun) (convertPath path) 0 List.drop_zero hne (k := k) (v := v) (n := fuel) (m := 0) (s := (x, false))
      (l := fun s => .ok s) (P := fun y a q => a = y ∧ q = .cur k.advance) h.front (by
        have := convertLoop_plen path none
        rw [show convertPath path = convertLoop [] none path from rfl, this, ← h.opened]
        simp [Env.inside]) h.fuel fun n' s' _ => Meets.pure ⟨rfl, rfl⟩
    rw [answer_ok, convertPath_visit] at hd
    have key : ∀ loc : Option Position, SMeets st T b (do
        let (v, hasMatch) ← multiLoop fuel (convertPath path) f fuel 0 true false x
        if atLeastOne && !hasMatch then do
          storeNoMatch loc
          CT.fail (.noMatch loc)
        else pure v : X V V) (.cur k) (do
          let y ← each g x (visit path v).1
          match (visit path v).2 with
          | some e => .err (.reader e)
          | none => if atLeastOne && (visit path v).1.isEmpty then .err .noMatch else .ok y) (To k.advance) := by
      intro loc
      refine Meets.bind' hd ⟨fun s => if atLeastOne && !s.2 then .err .noMatch else .ok s.1, ?_, fun s a q hq _ => ?_⟩
      · unfold outcome
        rw [answer_assoc]
        refine congrArg (fun f => each g x (visit path v).1 >>= f) (funext fun y => ?_)
        cases (visit path v).2 with
        | some e => rfl
        | none =>
          show _ = if (atLeastOne && !(false || !(visit path v).1.isEmpty)) = true then _ else _
          rw [Bool.false_or, Bool.not_not]
      · obtain ⟨rfl, rfl⟩ := hq
        obtain ⟨y, hm⟩ := a
        dsimp only
        split
        · intro s hs _
          exact ⟨.noMatch loc, some (.dummy loc), s, rfl, rfl⟩
        · exact Meets.pure ⟨rfl, rfl⟩
    cases atLeastOne with
    | false => exact key none
    | true =>
      show SMeets st T b (currentPosition true >>= _) _ _ _
      refine Meets.bind' (ans := (.ok () : Ans Unit)) (position_ok true ⟨k, rfl⟩) ⟨fun _ => _, rfl, fun _ a q hq _ => ?_⟩
      cases hq
      exact key a

end Verif.SimpleReader
