import Verif.Proofs.De.Number
/-! # Deserializing with `deserialize_any` -/

namespace Verif.DeSpec
open Json Cursor De
open SerSpec (decimal json jsons entries fields counted countedOpt keyText pair single Ok Oks OkEntries OkFields)
open Ser (SVal MapOp SerErr)

/-! ## From the JSON value -/

/-- the limits permit the value -/
def Within (env : Env) (v : JVal) : Prop :=
  env.depth + depth v ≤ env.max ∧ (∀ n, env.st.maxNestingDepth = some n → env.opened + depth v ≤ n) ∧
    (env.st.restrictNumberValues = true → ∀ t ∈ numbers v, unsupportedNumber t = false)

theorem Within.start {α : Type} {env : Env} {v : JVal} {c : Bool} {ty : ValueType} {k : Ans α} (h : Within env v) (hc : c = true) (hd : 0 < depth v) : start env c ty v k = k := by
  unfold DeSpec.start
  rw [if_neg (by have := h.1; omega), if_neg (by rw [hc]; nofun)]
  cases hn : env.st.maxNestingDepth with
  | none => rfl
  | some n =>
    have := h.2.1 n hn
    dsimp only
    rw [if_neg (by omega)]

theorem Within.of {env : Env} {v w : JVal} (h : Within env v) (hd : depth w + 1 ≤ depth v) (hn : ∀ t ∈ numbers w, t ∈ numbers v) : Within env.inside w := by
  refine ⟨?_, fun n hm => ?_, fun hr t ht => h.2.2 hr t (hn t ht)⟩
  · have := h.1
    show env.depth + 1 + depth w ≤ env.max
    omega
  · have := h.2.1 n hm
    show env.opened + 1 + depth w ≤ n
    omega

theorem Answer.pure_bind {E α β : Type} (a : α) (f : α → Answer E β) : (Answer.ok a >>= f) = f a := rfl

theorem map_some {α β : Type} {a : Option α} {f : α → β} {y : β} (h : a.map f = some y) : ∃ x, a = some x ∧ f x = y := by
  cases a with
  | none => cases h
  | some x => exact ⟨x, rfl, by injection h⟩

theorem number_data {t : Text} {x : Data} (h : ofJson (.num t) = some x) : ∃ p, anyNumber t = .ok p ∧ dataPrim p = .ok x := by
  rw [ofJson] at h
  unfold anyNumber
  by_cases hf : isFloat t = true
  · rw [if_pos hf] at h ⊢
    injection h with h
    exact ⟨_, rfl, congrArg _ h⟩
  rw [if_neg hf] at h ⊢
  match hi : intValue t with
  | none => rw [hi] at h; cases h
  | some i =>
    rw [hi] at h
    dsimp only [Option.bind] at h ⊢
    by_cases hr : inRange i = true
    · rw [if_pos hr] at h
      injection h with h
      have hx : ∀ ty, dataPrim (.int ty i) = .ok x := fun ty => congrArg _ h
      have fit : ∀ ty, ty.min ≤ i → i ≤ ty.max → fits ty i = true := fun ty h1 h2 => by unfold fits; rw [decide_eq_true h1, decide_eq_true h2]; rfl
      unfold inRange at hr
      rw [Bool.and_eq_true, decide_eq_true_eq, decide_eq_true_eq] at hr
      have e4 : Writer.IntTy.u128.max = 2 ^ 128 - 1 := rfl
      have e7 : Writer.IntTy.i128.min = -2 ^ 127 := rfl
      have e8 : Writer.IntTy.i128.max = 2 ^ 127 - 1 := rfl
      have e9 : Writer.IntTy.u128.min = 0 := rfl
      by_cases hm : t.head? = some '-'
      · rw [if_pos hm]
        have hneg : i ≤ 0 := by
          match t, hm with
          | c :: ds, hm =>
            injection hm with hm
            subst hm
            rw [intValue] at hi
            obtain ⟨n, _, rfl⟩ := map_some hi
            omega
        dsimp only
        split
        · exact ⟨_, rfl, hx _⟩
        rw [if_pos (fit .i128 (by omega) (by omega))]
        exact ⟨_, rfl, hx _⟩
      · rw [if_neg hm]
        have hpos : 0 ≤ i := by
          unfold intValue at hi
          split at hi
          · exact absurd rfl hm
          · obtain ⟨n, _, rfl⟩ := map_some hi
            omega
          · obtain ⟨n, _, rfl⟩ := map_some hi
            omega
        dsimp only
        split
        · exact ⟨_, rfl, hx _⟩
        rw [if_pos (fit .u128 (by omega) (by omega))]
        exact ⟨_, rfl, hx _⟩
    · rw [if_neg hr] at h; cases h

theorem allOf_cons {α : Type} {a : Option α} {as : List (Option α)} {xs : List α} (h : allOf (a :: as) = some xs) : ∃ x ys, a = some x ∧ allOf as = some ys ∧ xs = x :: ys := by
  cases a with
  | none => cases h
  | some x =>
    rw [allOf] at h
    match hy : allOf as with
    | none => rw [hy] at h; cases h
    | some ys =>
      rw [hy] at h
      injection h with h
      exact ⟨x, ys, rfl, rfl, h.symm⟩

mutual
theorem any_value : (v : JVal) → ∀ {n : Nat} {env : Env} {x : Data}, steps v ≤ n → Within env v → ofJson v = some x → value env v (anyDe n) = .ok x
  | v, 0, env, x => fun h _ _ => by cases v <;> (simp only [steps] at h; omega)
  | .null, n + 1, env, x => fun h hw hx => by
    rw [ofJson] at hx; injection hx with hx; subst hx
    rw [anyDe, value]; rfl
  | .bool b, n + 1, env, x => fun h hw hx => by
    rw [ofJson] at hx; injection hx with hx; subst hx
    rw [anyDe, value]; rfl
  | .str t, n + 1, env, x => fun h hw hx => by
    rw [ofJson] at hx; injection hx with hx; subst hx
    rw [anyDe, value]; rfl
  | .num t, n + 1, env, x => fun h hw hx => by
    obtain ⟨p, h1, h2⟩ := number_data hx
    have h3 : number env (.num t) = .ok t := by
      unfold number
      dsimp only
      rw [if_neg]
      intro hc
      rw [Bool.and_eq_true] at hc
      have := hw.2.2 hc.1 t (by rw [numbers]; exact List.mem_cons_self ..)
      rw [this] at hc
      cases hc.2
    rw [anyDe, value]
    show ((number env (.num t) >>= fun t => anyNumber t >>= fun p => (sem _).prim p) >>= _) = _
    rw [h3, Answer.pure_bind, h1, Answer.pure_bind, sem]
    dsimp only
    rw [h2]
    rfl
  | .arr vs, n + 1, env, x => fun h hw hx => by
    rw [ofJson] at hx
    obtain ⟨xs, h1, rfl⟩ := map_some hx
    rw [anyDe, value]
    show (seq env none (sem _) (.arr vs) >>= _) = _
    unfold seq
    have hd : depth (.arr vs) = depthItems vs + 1 := by rw [depth]
    rw [hw.start (c := isArr (.arr vs)) rfl (by omega), sem]
    have := any_items vs (n := n) (env := env.inside) (acc := []) (xs := xs) none 0 (by rw [steps] at h; omega) ?_ ?_ ?_ h1
    · dsimp only [items]
      rw [this]
      rfl
    · have := hw.1; show env.depth + 1 + depthItems vs ≤ env.max; omega
    · intro m hm; have := hw.2.1 m hm; show env.opened + 1 + depthItems vs ≤ m; omega
    · intro hr t ht; exact hw.2.2 hr t (by rw [numbers]; exact ht)
  | .obj ms, n + 1, env, x => fun h hw hx => by
    rw [ofJson] at hx
    obtain ⟨xs, h1, rfl⟩ := map_some hx
    rw [anyDe, value]
    show (map env (sem _) (.obj ms) >>= _) = _
    unfold map
    have hd : depth (.obj ms) = depthMembers ms + 1 := by rw [depth]
    rw [hw.start (c := isObj (.obj ms)) rfl (by omega), sem]
    have := any_members ms (n := n) (env := env.inside) (acc := []) (xs := xs) (by rw [steps] at h; omega) ?_ ?_ ?_ h1
    · dsimp only [members]
      rw [this]
      rfl
    · have := hw.1; show env.depth + 1 + depthMembers ms ≤ env.max; omega
    · intro m hm; have := hw.2.1 m hm; show env.opened + 1 + depthMembers ms ≤ m; omega
    · intro hr t ht; exact hw.2.2 hr t (by rw [numbers]; exact ht)
theorem any_items : (vs : List JVal) → ∀ {n : Nat} {env : Env} {acc xs : List Data} (_ : Option Nat) (len : Nat), stepsItems vs ≤ n → env.depth + depthItems vs ≤ env.max →
    (∀ n, env.st.maxNestingDepth = some n → env.opened + depthItems vs ≤ n) → (env.st.restrictNumberValues = true → ∀ t ∈ numbersItems vs, unsupportedNumber t = false) →
    allOf (ofJsons vs) = some xs → seqItems env none len vs (anySeq n acc) = .ok (.seq (acc.reverse ++ xs), len, [])
  | vs, 0, env, acc, xs => fun _ _ h => by cases vs <;> (rw [stepsItems] at h; omega)
  | [], n + 1, env, acc, xs => fun _ len h _ _ _ hx => by
    rw [ofJsons] at hx; injection hx with hx; subst hx
    rw [anySeq, seqItems, seqItems, List.append_nil]
    rfl
  | v :: vs, n + 1, env, acc, xs => fun o len h hd hm hr hx => by
    rw [ofJsons] at hx
    obtain ⟨y, ys, h1, h2, rfl⟩ := allOf_cons hx
    rw [depthItems] at hd hm
    rw [numbersItems] at hr
    rw [stepsItems] at h
    have hv := any_value v (n := n) (env := env) (by omega) ⟨by omega, fun m h' => by have := hm m h'; omega, fun h' t ht => hr h' t (List.mem_append_left _ ht)⟩ h1
    have hvs := any_items vs (n := n) (env := env) (acc := y :: acc) none len (by omega) (by omega) (fun m h' => by have := hm m h'; omega)
      (fun h' t ht => hr h' t (List.mem_append_right _ ht)) h2
    rw [anySeq, seqItems]
    dsimp only
    rw [hv, Answer.pure_bind, hvs]
    simp
theorem any_members : (ms : List (Text × JVal)) → ∀ {n : Nat} {env : Env} {acc xs : List (Text × Data)}, stepsMembers ms ≤ n → env.depth + depthMembers ms ≤ env.max →
    (∀ n, env.st.maxNestingDepth = some n → env.opened + depthMembers ms ≤ n) → (env.st.restrictNumberValues = true → ∀ t ∈ numbersMembers ms, unsupportedNumber t = false) →
    allOf (ofMembers ms) = some xs → mapKeys env ms (anyMap n acc) = .ok (.map (acc.reverse ++ xs), [])
  | ms, 0, env, acc, xs => fun h => by cases ms <;> (rw [stepsMembers] at h; omega)
  | [], n + 1, env, acc, xs => fun h _ _ _ hx => by
    rw [ofMembers] at hx; injection hx with hx; subst hx
    rw [anyMap, mapKeys, mapKeys, List.append_nil]
    rfl
  | (name, v) :: ms, n + 1, env, acc, xs => fun h hd hm hr hx => by
    rw [ofMembers] at hx
    obtain ⟨y, ys, h1, h2, rfl⟩ := allOf_cons hx
    obtain ⟨z, h3, rfl⟩ := map_some h1
    rw [depthMembers] at hd hm
    rw [numbersMembers] at hr
    rw [stepsMembers] at h
    have hv := any_value v (n := n) (env := env) (by omega) ⟨by omega, fun m h' => by have := hm m h'; omega, fun h' t ht => hr h' t (List.mem_append_left _ ht)⟩ h3
    have hvs := any_members ms (n := n) (env := env) (acc := (name, z) :: acc) (by omega) (by omega) (fun m h' => by have := hm m h'; omega)
      (fun h' t ht => hr h' t (List.mem_append_right _ ht)) h2
    have hk : keyDe name stringDe = .ok (.str name) := rfl
    rw [anyMap, mapKeys, hk]
    show (Answer.ok _ >>= _) = _
    rw [Answer.pure_bind, mapValue, hv, Answer.pure_bind, hvs]
    simp
end

/-! ## Too deep values -/

/-- the limits of the reader permit the value -/
def Readable (env : Env) (v : JVal) : Prop :=
  (∀ n, env.st.maxNestingDepth = some n → env.opened + depth v ≤ n) ∧ (env.st.restrictNumberValues = true → ∀ t ∈ numbers v, unsupportedNumber t = false)

mutual
theorem deep_value : (v : JVal) → ∀ {n : Nat} {env : Env} {x : Data}, steps v ≤ n → Readable env v → env.depth ≤ env.max → env.max < env.depth + depth v → ofJson v = some x →
    value env v (anyDe n) = .err (.maxNestingDepthExceeded env.max)
  | v, 0, env, x => fun h _ _ _ _ => by cases v <;> (simp only [steps] at h; omega)
  | .null, n + 1, env, x => fun h hw h1 h2 hx => by rw [depth] at h2; omega
  | .bool b, n + 1, env, x => fun h hw h1 h2 hx => by rw [depth] at h2; omega
  | .str t, n + 1, env, x => fun h hw h1 h2 hx => by rw [depth] at h2; omega
  | .num t, n + 1, env, x => fun h hw h1 h2 hx => by rw [depth] at h2; omega
  | .arr vs, n + 1, env, x => fun h hw hd1 hd2 hx => by
    rw [ofJson] at hx
    obtain ⟨xs, h1, rfl⟩ := map_some hx
    have hd : depth (.arr vs) = depthItems vs + 1 := by rw [depth]
    rw [anyDe, value]
    show (seq env none (sem _) (.arr vs) >>= _) = _
    unfold seq start
    by_cases hm : env.max ≤ env.depth
    · rw [if_pos hm]; rfl
    rw [if_neg hm, if_neg (show ¬ (!isArr (.arr vs)) = true by nofun), sem]
    have := deep_items vs (n := n) (env := env.inside) (acc := []) (xs := xs) 0 (by rw [steps] at h; omega) ?_ ?_ (show env.depth + 1 ≤ env.max by omega)
      (show env.max < env.depth + 1 + depthItems vs by omega) h1
    · dsimp only [items]
      rw [this]
      split
      · next k hk =>
        have := hw.1 k hk
        rw [if_neg (by omega)]
        rfl
      · rfl
    · intro m hm; have := hw.1 m hm; show env.opened + 1 + depthItems vs ≤ m; omega
    · intro hr t ht; exact hw.2 hr t (by rw [numbers]; exact ht)
  | .obj ms, n + 1, env, x => fun h hw hd1 hd2 hx => by
    rw [ofJson] at hx
    obtain ⟨xs, h1, rfl⟩ := map_some hx
    have hd : depth (.obj ms) = depthMembers ms + 1 := by rw [depth]
    rw [anyDe, value]
    show (map env (sem _) (.obj ms) >>= _) = _
    unfold map start
    by_cases hm : env.max ≤ env.depth
    · rw [if_pos hm]; rfl
    rw [if_neg hm, if_neg (show ¬ (!isObj (.obj ms)) = true by nofun), sem]
    have := deep_members ms (n := n) (env := env.inside) (acc := []) (xs := xs) (by rw [steps] at h; omega) ?_ ?_ (show env.depth + 1 ≤ env.max by omega)
      (show env.max < env.depth + 1 + depthMembers ms by omega) h1
    · dsimp only [members]
      rw [this]
      split
      · next k hk =>
        have := hw.1 k hk
        rw [if_neg (by omega)]
        rfl
      · rfl
    · intro m hm; have := hw.1 m hm; show env.opened + 1 + depthMembers ms ≤ m; omega
    · intro hr t ht; exact hw.2 hr t (by rw [numbers]; exact ht)
theorem deep_items : (vs : List JVal) → ∀ {n : Nat} {env : Env} {acc xs : List Data} (len : Nat), stepsItems vs ≤ n →
    (∀ n, env.st.maxNestingDepth = some n → env.opened + depthItems vs ≤ n) → (env.st.restrictNumberValues = true → ∀ t ∈ numbersItems vs, unsupportedNumber t = false) →
    env.depth ≤ env.max → env.max < env.depth + depthItems vs → allOf (ofJsons vs) = some xs → seqItems env none len vs (anySeq n acc) = .err (.maxNestingDepthExceeded env.max)
  | vs, 0, env, acc, xs => fun _ h => by cases vs <;> (rw [stepsItems] at h; omega)
  | [], n + 1, env, acc, xs => fun _ _ _ _ _ h _ => by rw [depthItems] at h; omega
  | v :: vs, n + 1, env, acc, xs => fun len h hm hr hd1 hd2 hx => by
    rw [ofJsons] at hx
    obtain ⟨y, ys, h1, h2, rfl⟩ := allOf_cons hx
    rw [depthItems] at hd2 hm
    rw [numbersItems] at hr
    rw [stepsItems] at h
    rw [anySeq, seqItems]
    dsimp only
    by_cases hv : env.max < env.depth + depth v
    · rw [deep_value v (n := n) (env := env) (by omega) ⟨fun m h' => by have := hm m h'; omega, fun h' t ht => hr h' t (List.mem_append_left _ ht)⟩ hd1 hv h1]
      rfl
    · rw [any_value v (n := n) (env := env) (by omega) ⟨by omega, fun m h' => by have := hm m h'; omega, fun h' t ht => hr h' t (List.mem_append_left _ ht)⟩ h1, Answer.pure_bind]
      exact deep_items vs (n := n) (env := env) (acc := y :: acc) len (by omega) (fun m h' => by have := hm m h'; omega) (fun h' t ht => hr h' t (List.mem_append_right _ ht)) hd1 (by omega) h2
theorem deep_members : (ms : List (Text × JVal)) → ∀ {n : Nat} {env : Env} {acc xs : List (Text × Data)}, stepsMembers ms ≤ n →
    (∀ n, env.st.maxNestingDepth = some n → env.opened + depthMembers ms ≤ n) → (env.st.restrictNumberValues = true → ∀ t ∈ numbersMembers ms, unsupportedNumber t = false) →
    env.depth ≤ env.max → env.max < env.depth + depthMembers ms → allOf (ofMembers ms) = some xs → mapKeys env ms (anyMap n acc) = .err (.maxNestingDepthExceeded env.max)
  | ms, 0, env, acc, xs => fun h => by cases ms <;> (rw [stepsMembers] at h; omega)
  | [], n + 1, env, acc, xs => fun _ _ _ _ h _ => by rw [depthMembers] at h; omega
  | (name, v) :: ms, n + 1, env, acc, xs => fun h hm hr hd1 hd2 hx => by
    rw [ofMembers] at hx
    obtain ⟨y, ys, h1, h2, rfl⟩ := allOf_cons hx
    obtain ⟨z, h3, rfl⟩ := map_some h1
    rw [depthMembers] at hd2 hm
    rw [numbersMembers] at hr
    rw [stepsMembers] at h
    have hk : keyDe name stringDe = .ok (.str name) := rfl
    rw [anyMap, mapKeys, hk]
    show (Answer.ok _ >>= _) = _
    rw [Answer.pure_bind, mapValue]
    by_cases hv : env.max < env.depth + depth v
    · rw [deep_value v (n := n) (env := env) (by omega) ⟨fun m h' => by have := hm m h'; omega, fun h' t ht => hr h' t (List.mem_append_left _ ht)⟩ hd1 hv h3]
      rfl
    · rw [any_value v (n := n) (env := env) (by omega) ⟨by omega, fun m h' => by have := hm m h'; omega, fun h' t ht => hr h' t (List.mem_append_left _ ht)⟩ h3, Answer.pure_bind]
      exact deep_members ms (n := n) (env := env) (acc := (name, z) :: acc) (by omega) (fun m h' => by have := hm m h'; omega) (fun h' t ht => hr h' t (List.mem_append_right _ ht)) hd1 (by omega) h2
end

mutual
theorem any_propagates : (n : Nat) → Propagates (anyDe n)
  | 0 => by rw [Propagates, anyDe, Aborts]; trivial
  | n + 1 => by
    rw [Propagates, anyDe, Aborts, AbortsVis]
    refine ⟨⟨?_, ?_, seq_propagates n [], map_propagates n [], ?_⟩, fun e => ⟨e, rfl, rfl⟩⟩
    · rw [Aborts]; trivial
    · rw [Aborts]; trivial
    · rw [AbortsEnum]; trivial
theorem seq_propagates : (n : Nat) → (acc : List Data) → AbortsSeq (fun e e' => kind e = kind e') (anySeq n acc)
  | 0, _ => by rw [anySeq, AbortsSeq]; trivial
  | n + 1, acc => by
    rw [anySeq, AbortsSeq]
    refine ⟨any_propagates n, fun x => ?_, fun e => ⟨e, rfl, rfl⟩⟩
    cases x with
    | none => dsimp only; rw [AbortsSeq]; trivial
    | some x => exact seq_propagates n (x :: acc)
theorem map_propagates : (n : Nat) → (acc : List (Text × Data)) → AbortsMap (fun e e' => kind e = kind e') (anyMap n acc)
  | 0, _ => by rw [anyMap, AbortsMap]; trivial
  | n + 1, acc => by
    rw [anyMap, AbortsMap]
    refine ⟨?_, fun x => ?_, fun e => ⟨e, rfl, rfl⟩⟩
    · unfold stringDe primVis
      rw [Aborts, AbortsVis]
      refine ⟨⟨?_, ?_, ?_, ?_, ?_⟩, fun e => ⟨e, rfl, rfl⟩⟩
      · rw [Aborts]; trivial
      · rw [Aborts]; trivial
      · rw [AbortsSeq]; trivial
      · rw [AbortsMap]; trivial
      · rw [AbortsEnum]; trivial
    · split
      · next name _ =>
        rw [AbortsMap]
        exact ⟨any_propagates n, fun x => map_propagates n ((name, x) :: acc), fun e => ⟨e, rfl, rfl⟩⟩
      · rw [AbortsMap]; trivial
      · rw [AbortsMap]; trivial
      · rw [AbortsMap]; trivial
end

/-! ## Depth and numbers of the data -/

mutual
theorem ofJson_depth : (v : JVal) → ∀ {x : Data}, ofJson v = some x → depth v = x.depth
  | .null, x, h => by rw [ofJson] at h; injection h with h; subst h; rw [depth, Data.depth] <;> nofun
  | .bool b, x, h => by rw [ofJson] at h; injection h with h; subst h; rw [depth, Data.depth] <;> nofun
  | .str t, x, h => by rw [ofJson] at h; injection h with h; subst h; rw [depth, Data.depth] <;> nofun
  | .num t, x, h => by
    obtain ⟨p, _, h⟩ := number_data h
    cases p <;> cases h <;> (rw [depth, Data.depth] <;> nofun)
  | .arr vs, x, h => by
    rw [ofJson] at h
    obtain ⟨xs, h1, rfl⟩ := map_some h
    rw [depth, Data.depth, ofJsons_depth vs h1]
  | .obj ms, x, h => by
    rw [ofJson] at h
    obtain ⟨xs, h1, rfl⟩ := map_some h
    rw [depth, Data.depth, ofMembers_depth ms h1]
theorem ofJsons_depth : (vs : List JVal) → ∀ {xs : List Data}, allOf (ofJsons vs) = some xs → depthItems vs = Data.depths xs
  | [], xs, h => by rw [ofJsons] at h; injection h with h; subst h; rw [depthItems, Data.depths]
  | v :: vs, xs, h => by
    rw [ofJsons] at h
    obtain ⟨y, ys, h1, h2, rfl⟩ := allOf_cons h
    rw [depthItems, Data.depths, ofJson_depth v h1, ofJsons_depth vs h2]
theorem ofMembers_depth : (ms : List (Text × JVal)) → ∀ {xs : List (Text × Data)}, allOf (ofMembers ms) = some xs → depthMembers ms = Data.depthm xs
  | [], xs, h => by rw [ofMembers] at h; injection h with h; subst h; rw [depthMembers, Data.depthm]
  | (_, v) :: ms, xs, h => by
    rw [ofMembers] at h
    obtain ⟨y, ys, h1, h2, rfl⟩ := allOf_cons h
    obtain ⟨z, h3, rfl⟩ := map_some h1
    rw [depthMembers, Data.depthm, ofJson_depth v h3, ofMembers_depth ms h2]
end

theorem dropWhile_all {p : Char → Bool} : (l : Text) → (∀ c ∈ l, p c = true) → l.dropWhile p = []
  | [], _ => rfl
  | c :: l, h => by rw [List.dropWhile_cons_of_pos (h c (List.mem_cons_self ..))]; exact dropWhile_all l fun c hc => h c (List.mem_cons_of_mem _ hc)

/-- the numbers of serialized integers satisfy the number restriction -/
theorem decimal_supported {i : Int} (h : inRange i = true) : unsupportedNumber (decimal i) = false := by
  unfold inRange at h
  rw [Bool.and_eq_true, decide_eq_true_eq, decide_eq_true_eq] at h
  have hl : (Nat.toDigits 10 i.natAbs).length ≤ 40 := by
    rw [Nat.length_toDigits_le_iff (by decide) (by decide)]
    have : (2 : Int) ^ 128 < 10 ^ 40 := by decide
    have h3 : (2 : Int) ^ 127 < 10 ^ 40 := by decide
    have h4 : ((10 ^ 40 : Nat) : Int) = 10 ^ 40 := by decide
    omega
  have hc : ∀ c ∈ decimal i, (c != 'e' && c != 'E') = true := by
    have hd := toDigits_chars i.natAbs
    have aux : ∀ c : Char, c.toNat ≤ 0x39 → (c != 'e' && c != 'E') = true := by
      intro c hc
      have h1 : c ≠ 'e' := by rintro rfl; revert hc; decide
      have h2 : c ≠ 'E' := by rintro rfl; revert hc; decide
      simp [h1, h2]
    intro c hc
    unfold decimal at hc
    split at hc
    · rcases List.mem_cons.1 hc with rfl | hc
      · rfl
      · exact aux c (hd c hc).2
    · exact aux c (hd c hc).2
  have hlen : (decimal i).length ≤ 41 := by
    unfold decimal
    split
    · rw [List.length_cons]; omega
    · omega
  unfold unsupportedNumber
  rw [dropWhile_all _ hc]
  have : decide ((decimal i).length > 100) = false := decide_eq_false (by omega)
  rw [this]
  rfl

theorem ofJson_decimal {i : Int} (h : inRange i = true) : ofJson (.num (decimal i)) = some (.int i) := by
  rw [ofJson]
  unfold decimal
  by_cases hi : i < 0
  · rw [if_pos hi, if_neg (by rw [isFloat_minus, isFloat_digits (toDigits_chars _)]; nofun), intValue, natValue_toDigits]
    have : -((i.natAbs : Nat) : Int) = i := by omega
    show (if inRange (-(i.natAbs : Int)) then some (Data.int (-(i.natAbs : Int))) else none) = _
    rw [this, if_pos h]
  · rw [if_neg hi, if_neg (by rw [isFloat_digits (toDigits_chars _)]; nofun), (intValue_toDigits _).1]
    have : ((i.natAbs : Nat) : Int) = i := by omega
    rw [this]
    exact if_pos h

/-! ## From the Serde data model -/

/-- the JSON value has the data, and its numbers are those of the data or integers -/
structure Carries (j : JVal) (x : Data) : Prop where
  data : ofJson j = some x
  numbers : ∀ t ∈ numbers j, t ∈ x.floats ∨ ∃ i, inRange i = true ∧ t = decimal i

structure CarriesAll (js : List JVal) (xs : List Data) : Prop where
  data : allOf (ofJsons js) = some xs
  numbers : ∀ t ∈ numbersItems js, t ∈ Data.floatss xs ∨ ∃ i, inRange i = true ∧ t = decimal i

structure CarriesMembers (ms : List (Text × JVal)) (xs : List (Text × Data)) : Prop where
  data : allOf (ofMembers ms) = some xs
  numbers : ∀ t ∈ numbersMembers ms, t ∈ Data.floatsm xs ∨ ∃ i, inRange i = true ∧ t = decimal i

theorem Carries.simple {j : JVal} {x : Data} (h : ofJson j = some x) (hn : Cursor.numbers j = []) : Carries j x := ⟨h, fun t ht => by rw [hn] at ht; cases ht⟩

theorem Carries.int {i : Int} (h : inRange i = true) : Carries (.num (decimal i)) (.int i) := by
  refine ⟨ofJson_decimal h, fun t ht => .inr ⟨i, h, ?_⟩⟩
  rw [Cursor.numbers] at ht
  exact List.mem_singleton.1 ht

theorem Carries.arr {js : List JVal} {xs : List Data} (h : CarriesAll js xs) : Carries (.arr js) (.seq xs) := by
  refine ⟨?_, ?_⟩
  · rw [ofJson, h.data]; rfl
  · rw [Cursor.numbers, Data.floats]; exact h.numbers

theorem Carries.obj {js : List (Text × JVal)} {xs : List (Text × Data)} (h : CarriesMembers js xs) : Carries (.obj js) (.map xs) := by
  refine ⟨?_, ?_⟩
  · rw [ofJson, h.data]; rfl
  · rw [Cursor.numbers, Data.floats]; exact h.numbers

theorem CarriesAll.nil : CarriesAll [] [] := ⟨by rw [ofJsons]; rfl, fun t ht => by rw [numbersItems] at ht; cases ht⟩
theorem CarriesAll.cons {j : JVal} {x : Data} {js : List JVal} {xs : List Data} (h : Carries j x) (hs : CarriesAll js xs) : CarriesAll (j :: js) (x :: xs) := by
  refine ⟨?_, fun t ht => ?_⟩
  · rw [ofJsons, h.data, allOf, hs.data]; rfl
  · rw [numbersItems] at ht
    rw [Data.floatss]
    rcases List.mem_append.1 ht with ht | ht
    · exact (h.numbers t ht).imp_left (List.mem_append_left _)
    · exact (hs.numbers t ht).imp_left (List.mem_append_right _)

theorem CarriesMembers.nil : CarriesMembers [] [] := ⟨by rw [ofMembers]; rfl, fun t ht => by rw [numbersMembers] at ht; cases ht⟩
theorem CarriesMembers.cons {n : Text} {j : JVal} {x : Data} {js : List (Text × JVal)} {xs : List (Text × Data)} (h : Carries j x) (hs : CarriesMembers js xs) :
    CarriesMembers ((n, j) :: js) ((n, x) :: xs) := by
  refine ⟨?_, fun t ht => ?_⟩
  · rw [ofMembers, h.data]
    show allOf (some (n, x) :: _) = _
    rw [allOf, hs.data]
    rfl
  · rw [numbersMembers] at ht
    rw [Data.floatsm]
    rcases List.mem_append.1 ht with ht | ht
    · exact (h.numbers t ht).imp_left (List.mem_append_left _)
    · exact (hs.numbers t ht).imp_left (List.mem_append_right _)

theorem Carries.single {n : Text} {j : JVal} {x : Data} (h : Carries j x) : Carries (single n j) (.map [(n, x)]) := .obj (.cons h .nil)

/-- all of them without errors -/
theorem sequence_ok {α : Type} (as : List α) : SerSpec.sequence (as.map .ok) = .ok as := by
  induction as with
  | nil => rfl
  | cons a as ih => rw [List.map_cons, SerSpec.sequence, ih]; rfl

theorem counted_ok {α : Type} {n : Nat} {as : List α} (h : n = as.length) : counted n (as.map .ok) = .ok as := by
  unfold counted
  rw [List.take_of_length_le (by rw [List.length_map]; omega), sequence_ok]
  dsimp only
  rw [if_pos (by rw [List.length_map, h])]

theorem countedOpt_ok {α : Type} {n : Option Nat} {as : List α} (h : n = none ∨ n = some as.length) : countedOpt n (as.map .ok) = .ok as := by
  rcases h with rfl | rfl
  · exact sequence_ok as
  · exact counted_ok rfl

theorem withLength_some {α β : Type} {n : Option Nat} {xs : List α} {r : Option β} {y : β} (h : withLength n xs r = some y) : (n = none ∨ n = some xs.length) ∧ r = some y := by
  unfold withLength at h
  split at h
  · exact ⟨‹_›, h⟩
  · cases h

theorem withLength_exact {α β : Type} {n : Nat} {xs : List α} {r : Option β} {y : β} (h : withLength (some n) xs r = some y) : n = xs.length ∧ r = some y := by
  obtain ⟨h1 | h1, h2⟩ := withLength_some h
  · cases h1
  · injection h1 with h1
    exact ⟨h1, h2⟩

theorem carries_bytes (bs : Bytes) : CarriesAll (bs.map fun b => .num (decimal b.toNat)) (bs.map fun b => .int b.toNat) := by
  induction bs with
  | nil => exact .nil
  | cons b bs ih =>
    refine .cons (.int ?_) ih
    have := b.toNat_lt
    unfold inRange
    rw [Bool.and_eq_true, decide_eq_true_eq, decide_eq_true_eq]
    omega

mutual
theorem ser_json : (v : SVal) → ∀ {x : Data}, ofSer v = some x → ∃ j, json v = .ok j ∧ Carries j x
  | .bool b, x, h => by
    rw [ofSer] at h; injection h with h; subst h
    exact ⟨_, by rw [json], .simple (by rw [ofJson]) (by rw [numbers])⟩
  | .int ty i, x, h => by
    rw [ofSer] at h
    split at h
    · injection h with h; subst h
      exact ⟨_, by rw [json], .int ‹_›⟩
    · cases h
  | .float f, x, h => by
    rw [ofSer] at h
    split at h
    · next hc =>
      rw [Bool.and_eq_true] at hc
      injection h with h; subst h
      refine ⟨.num f.text, by rw [json, if_pos hc.1], ⟨by rw [ofJson, if_pos hc.2], fun t ht => .inl ?_⟩⟩
      rw [numbers] at ht
      rw [Data.floats]
      exact ht
    · cases h
  | .char c, x, h => by
    rw [ofSer] at h; injection h with h; subst h
    exact ⟨_, by rw [json], .simple (by rw [ofJson]) (by rw [numbers])⟩
  | .str t, x, h => by
    rw [ofSer] at h; injection h with h; subst h
    exact ⟨_, by rw [json], .simple (by rw [ofJson]) (by rw [numbers])⟩
  | .bytes bs, x, h => by
    rw [ofSer] at h; injection h with h; subst h
    exact ⟨_, by rw [json], .arr (carries_bytes bs)⟩
  | .none, x, h => by
    rw [ofSer] at h; injection h with h; subst h
    exact ⟨_, by rw [json], .simple (by rw [ofJson]) (by rw [numbers])⟩
  | .some v, x, h => by
    rw [ofSer] at h
    rw [json]
    exact ser_json v h
  | .unit, x, h => by
    rw [ofSer] at h; injection h with h; subst h
    exact ⟨_, by rw [json], .simple (by rw [ofJson]) (by rw [numbers])⟩
  | .unitStruct, x, h => by
    rw [ofSer] at h; injection h with h; subst h
    exact ⟨_, by rw [json], .simple (by rw [ofJson]) (by rw [numbers])⟩
  | .unitVariant n, x, h => by
    rw [ofSer] at h; injection h with h; subst h
    exact ⟨_, by rw [json], .simple (by rw [ofJson]) (by rw [numbers])⟩
  | .newtypeStruct v, x, h => by
    rw [ofSer] at h
    rw [json]
    exact ser_json v h
  | .newtypeVariant n v, x, h => by
    rw [ofSer] at h
    obtain ⟨y, h1, rfl⟩ := map_some h
    obtain ⟨j, h2, h3⟩ := ser_json v h1
    exact ⟨single n j, by rw [json, h2]; rfl, h3.single⟩
  | .seq len vs, x, h => by
    rw [ofSer] at h
    obtain ⟨h0, h⟩ := withLength_some h
    obtain ⟨xs, h1, rfl⟩ := map_some h
    obtain ⟨js, h2, h3, h4⟩ := sers_json vs h1
    exact ⟨.arr js, by rw [json, h2, countedOpt_ok (h3 ▸ h0)]; rfl, .arr h4⟩
  | .tuple len vs, x, h => by
    rw [ofSer] at h
    obtain ⟨h0, h⟩ := withLength_exact h
    obtain ⟨xs, h1, rfl⟩ := map_some h
    obtain ⟨js, h2, h3, h4⟩ := sers_json vs h1
    exact ⟨.arr js, by rw [json, h2, counted_ok (h3 ▸ h0)]; rfl, .arr h4⟩
  | .tupleStruct len vs, x, h => by
    rw [ofSer] at h
    obtain ⟨h0, h⟩ := withLength_exact h
    obtain ⟨xs, h1, rfl⟩ := map_some h
    obtain ⟨js, h2, h3, h4⟩ := sers_json vs h1
    exact ⟨.arr js, by rw [json, h2, counted_ok (h3 ▸ h0)]; rfl, .arr h4⟩
  | .tupleVariant n len vs, x, h => by
    rw [ofSer] at h
    obtain ⟨h0, h⟩ := withLength_exact h
    obtain ⟨xs, h1, rfl⟩ := map_some h
    obtain ⟨js, h2, h3, h4⟩ := sers_json vs h1
    exact ⟨single n (.arr js), by rw [json, h2, counted_ok (h3 ▸ h0)]; rfl, (Carries.arr h4).single⟩
  | .map len ops, x, h => by
    rw [ofSer] at h
    obtain ⟨h0, h⟩ := withLength_some h
    obtain ⟨xs, h1, rfl⟩ := map_some h
    obtain ⟨js, h2, h3, h4⟩ := entries_json ops h1
    exact ⟨.obj js, by rw [json, h2, countedOpt_ok (h3 ▸ h0)]; rfl, .obj h4⟩
  | .struct len fs, x, h => by
    rw [ofSer] at h
    obtain ⟨h0, h⟩ := withLength_exact h
    obtain ⟨xs, h1, rfl⟩ := map_some h
    obtain ⟨js, h2, h3, h4⟩ := fields_json fs h1
    exact ⟨.obj js, by rw [json, h2, counted_ok (h3 ▸ h0)]; rfl, .obj h4⟩
  | .structVariant n len fs, x, h => by
    rw [ofSer] at h
    obtain ⟨h0, h⟩ := withLength_exact h
    obtain ⟨xs, h1, rfl⟩ := map_some h
    obtain ⟨js, h2, h3, h4⟩ := fields_json fs h1
    exact ⟨single n (.obj js), by rw [json, h2, counted_ok (h3 ▸ h0)]; rfl, (Carries.obj h4).single⟩
  | .custom m, x, h => by rw [ofSer] at h; cases h
theorem sers_json : (vs : List SVal) → ∀ {xs : List Data}, allOf (ofSers vs) = some xs → ∃ js, jsons vs = js.map .ok ∧ vs.length = js.length ∧ CarriesAll js xs
  | [], xs, h => by
    rw [ofSers] at h; injection h with h; subst h
    exact ⟨[], by rw [jsons]; rfl, rfl, .nil⟩
  | v :: vs, xs, h => by
    rw [ofSers] at h
    obtain ⟨y, ys, h1, h2, rfl⟩ := allOf_cons h
    obtain ⟨j, h3, h4⟩ := ser_json v h1
    obtain ⟨js, h5, h6, h7⟩ := sers_json vs h2
    exact ⟨j :: js, by rw [jsons, h3, h5]; rfl, by rw [List.length_cons, List.length_cons, h6], .cons h4 h7⟩
theorem entries_json : (ops : List MapOp) → ∀ {xs : List (Text × Data)}, allOf (ofEntries ops) = some xs → ∃ js, entries ops = js.map .ok ∧ (ofEntries ops).length = js.length ∧ CarriesMembers js xs
  | [], xs, h => by
    rw [ofEntries] at h; injection h with h; subst h
    exact ⟨[], by rw [entries] <;> first | rfl | nofun, by rw [ofEntries]; rfl, .nil⟩
  | .key (.str t) :: .value v :: ops, xs, h => by
    rw [ofEntries] at h
    obtain ⟨y, ys, h1, h2, rfl⟩ := allOf_cons h
    obtain ⟨z, h3, rfl⟩ := map_some h1
    obtain ⟨j, h4, h5⟩ := ser_json v h3
    obtain ⟨js, h6, h7, h8⟩ := entries_json ops h2
    exact ⟨(t, j) :: js, by rw [entries, keyText, h4, h6]; rfl, by rw [ofEntries, List.length_cons, List.length_cons, h7], .cons h5 h8⟩
  | .key k :: [], xs, h => by
    unfold ofEntries at h; cases k <;> cases h
  | .key k :: .key k' :: ops, xs, h => by
    unfold ofEntries at h; cases k <;> cases h
  | .value v :: ops, xs, h => by
    unfold ofEntries at h; cases h
theorem fields_json : (fs : List (Text × SVal)) → ∀ {xs : List (Text × Data)}, allOf (ofFields fs) = some xs → ∃ js, fields fs = js.map .ok ∧ fs.length = js.length ∧ CarriesMembers js xs
  | [], xs, h => by
    rw [ofFields] at h; injection h with h; subst h
    exact ⟨[], by rw [fields]; rfl, rfl, .nil⟩
  | (n, v) :: fs, xs, h => by
    rw [ofFields] at h
    obtain ⟨y, ys, h1, h2, rfl⟩ := allOf_cons h
    obtain ⟨z, h3, rfl⟩ := map_some h1
    obtain ⟨j, h4, h5⟩ := ser_json v h3
    obtain ⟨js, h6, h7, h8⟩ := fields_json fs h2
    exact ⟨(n, j) :: js, by rw [fields, h4, h6]; rfl, by rw [List.length_cons, List.length_cons, h7], .cons h5 h8⟩
end

end Verif.DeSpec
