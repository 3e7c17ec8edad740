import Verif.Limits

/-!
# Environment registry (C56) and faucet (C57)

Two components beside the exchange: `env_registry/src/env_registry.rs` (the addresses and settings that clients look up) and
`faucet/src/lib.rs` (test tokens). Each is its own transition system.
-/

namespace Perp

/-! ## Environment registry -/

namespace Registry

/-- env_registry.rs:16-18 -/
structure Reg where
  vars : AMap String String

/-- `new`: env_registry.rs:21-28 -/
def new : Reg := ⟨AMap.empty⟩

/-- `get_variables`: env_registry.rs:30-35. The answer is a `HashMap`: a key asked for twice is answered once. -/
def getVariables (s : Reg) (keys : List String) : AMap String String :=
  keys.foldl (fun m k => m.set k ((s.vars.get k).getD "")) AMap.empty

/-- `set_variables`: env_registry.rs:37-41 -/
def setVariables (s : Reg) (vs : List (String × String)) : Reg :=
  ⟨vs.foldl (fun m v => m.set v.1 v.2) s.vars⟩

/-- `remove_variables`: env_registry.rs:43-47 -/
def removeVariables (s : Reg) (keys : List String) : Reg :=
  ⟨keys.foldl (fun m k => m.erase k) s.vars⟩

/-- Calls. -/
inductive Call where
  | get (keys : List String)
  | set (vs : List (String × String))
  | remove (keys : List String)

/-- Method authorization: env_registry.rs:8-14. `owner`: the caller satisfies the owner rule. -/
def step (owner : Bool) (s : Reg) : Call → R (Reg × Option (AMap String String))
  | .get keys => pure (s, some (getVariables s keys))
  | .set vs => do require owner .role; pure (setVariables s vs, none)
  | .remove keys => do require owner .role; pure (removeVariables s keys, none)

/-- Histories: the successful calls with the authorization of their callers. -/
inductive Hist : List (Bool × Call) → Reg → Prop
  | init : Hist [] new
  | step {l s owner c s' o} : Hist l s → step owner s c = Except.ok (s', o) → Hist (l ++ [(owner, c)]) s'

/-! ### Specification -/

/-- What a call writes: to a variable, or (`none`) its removal. -/
def writes : Call → List (String × Option String)
  | .get _ => []
  | .set vs => vs.map (fun v => (v.1, some v.2))
  | .remove keys => keys.map (fun k => (k, none))

/-- The last write to a variable in a list of writes. -/
def lastWrite (k : String) (ws : List (String × Option String)) : Option (Option String) :=
  ((ws.filter (fun w => decide (w.1 = k))).getLast?).map Prod.snd

/-- The value a variable has after some writes: the last one written, or none. -/
def valueAfter (ws : List (String × Option String)) (k : String) : Option String := (lastWrite k ws).getD none

/-! ### Proof -/

theorem valueAfter_append_one (ws : List (String × Option String)) (w : String × Option String) (k : String) :
    valueAfter (ws ++ [w]) k = if w.1 = k then w.2 else valueAfter ws k := by
  unfold valueAfter lastWrite
  rw [List.filter_append]
  by_cases h : w.1 = k
  · rw [if_pos h]; simp [h]
  · rw [if_neg h]; simp [h]

theorem set_value {vs : List (String × String)} : ∀ {m : AMap String String} {ws : List (String × Option String)},
    (∀ k, m.get k = valueAfter ws k) →
    ∀ k, (vs.foldl (fun m v => m.set v.1 v.2) m).get k = valueAfter (ws ++ vs.map (fun v => (v.1, some v.2))) k := by
  induction vs with
  | nil => intro m ws h k; simpa using h k
  | cons v vs ih =>
    intro m ws h k
    rw [List.foldl_cons, List.map_cons, show ws ++ (v.1, some v.2) :: vs.map (fun v => (v.1, some v.2)) =
      (ws ++ [(v.1, some v.2)]) ++ vs.map (fun v => (v.1, some v.2)) by simp]
    refine ih (fun k' => ?_) k
    rw [AMap.get_set, valueAfter_append_one, h k']

theorem remove_value {ks : List String} : ∀ {m : AMap String String} {ws : List (String × Option String)},
    (∀ k, m.get k = valueAfter ws k) →
    ∀ k, (ks.foldl (fun m k => m.erase k) m).get k = valueAfter (ws ++ ks.map (fun k => (k, none))) k := by
  induction ks with
  | nil => intro m ws h k; simpa using h k
  | cons v vs ih =>
    intro m ws h k
    rw [List.foldl_cons, List.map_cons, show ws ++ (v, none) :: vs.map (fun k => (k, none)) =
      (ws ++ [(v, none)]) ++ vs.map (fun k => (k, (none : Option String))) by simp]
    refine ih (fun k' => ?_) k
    rw [AMap.get_erase, valueAfter_append_one, h k']

theorem hist_value {l : List (Bool × Call)} {s : Reg} (h : Hist l s) :
    (∀ k, s.vars.get k = valueAfter (l.flatMap (fun x => writes x.2)) k) ∧
    ∀ x ∈ l, writes x.2 ≠ [] → x.1 = true := by
  induction h with
  | init => exact ⟨fun k => rfl, fun x hx => (by cases hx)⟩
  | @step l s owner c s' o _ hs ih =>
    rw [List.flatMap_append, List.flatMap_cons, List.flatMap_nil, List.append_nil]
    cases c with
    | get keys =>
      simp only [step, pure_ok, Prod.mk.injEq] at hs
      obtain ⟨rfl, -⟩ := hs
      refine ⟨by simpa [writes] using ih.1, fun x hx hw => ?_⟩
      rcases List.mem_append.mp hx with hx | hx
      · exact ih.2 x hx hw
      · rw [List.mem_singleton.mp hx] at hw; exact absurd rfl hw
    | set vs =>
      simp only [step, bind_ok, pure_ok, require_ok, Prod.mk.injEq] at hs
      obtain ⟨-, ho, rfl, -⟩ := hs
      refine ⟨set_value ih.1, fun x hx hw => ?_⟩
      rcases List.mem_append.mp hx with hx | hx
      · exact ih.2 x hx hw
      · rw [List.mem_singleton.mp hx]; exact ho
    | remove keys =>
      simp only [step, bind_ok, pure_ok, require_ok, Prod.mk.injEq] at hs
      obtain ⟨-, ho, rfl, -⟩ := hs
      refine ⟨remove_value ih.1, fun x hx hw => ?_⟩
      rcases List.mem_append.mp hx with hx | hx
      · exact ih.2 x hx hw
      · rw [List.mem_singleton.mp hx]; exact ho

theorem getVariables_get (s : Reg) (keys : List String) (k : String) :
    (getVariables s keys).get k = if k ∈ keys then some ((s.vars.get k).getD "") else none := by
  have key : ∀ (keys : List String) (m : AMap String String),
      (keys.foldl (fun m k => m.set k ((s.vars.get k).getD "")) m).get k =
        if k ∈ keys then some ((s.vars.get k).getD "") else m.get k := by
    intro keys
    induction keys with
    | nil => intro m; simp
    | cons x keys ih =>
      intro m
      rw [List.foldl_cons, ih, AMap.get_set]
      by_cases h1 : k ∈ keys
      · simp [h1]
      · by_cases h2 : x = k
        · subst h2; simp [h1]
        · have : ¬ k = x := fun e => h2 e.symm
          simp [h1, h2, this]
  rw [getVariables, key]
  simp [AMap.get_empty]

/-- **C56.** After any history of calls, whoever asks for some variables gets, for exactly the keys asked for, the value last
written by a call of the owner; variables never written, or removed since, read as the empty string. Reading always succeeds and
changes nothing. -/
theorem c56_last_write {l : List (Bool × Call)} {s : Reg} (h : Hist l s) (owner : Bool) (keys : List String) :
    ∃ answer, step owner s (.get keys) = Except.ok (s, some answer) ∧
      (∀ k, answer.get k = if k ∈ keys then
        some ((valueAfter ((l.filter Prod.fst).flatMap (fun x => writes x.2)) k).getD "") else none) := by
  refine ⟨getVariables s keys, rfl, fun k => ?_⟩
  obtain ⟨h1, h2⟩ := hist_value h
  rw [getVariables_get, h1]
  have key : ∀ l : List (Bool × Call), (∀ x ∈ l, writes x.2 ≠ [] → x.1 = true) →
      (l.filter Prod.fst).flatMap (fun x => writes x.2) = l.flatMap (fun x => writes x.2) := by
    intro l
    induction l with
    | nil => intro _; rfl
    | cons x l ih =>
      intro hx
      have ih := ih (fun y hy => hx y (by simp [hy]))
      rw [List.filter_cons]
      by_cases hw : x.1 = true
      · rw [if_pos hw, List.flatMap_cons, List.flatMap_cons, ih]
      · have : writes x.2 = [] := by
          by_contra hc; exact hw (hx x (by simp) hc)
        rw [if_neg hw, List.flatMap_cons, ih, this]; rfl
  rw [key l h2]

/-- **C56.** A caller who is not the owner cannot write. -/
theorem c56_owner_only (s : Reg) (c : Call) : (∃ keys, c = .get keys) ∨ step false s c = Except.error .role := by
  cases c with
  | get keys => exact Or.inl ⟨keys, rfl⟩
  | set vs => exact Or.inr rfl
  | remove keys => exact Or.inr rfl

/-- Two writes, a removal and a rewrite: the last one counts, also within one call. -/
example : ∃ s, Hist [(true, .set [("a", "1"), ("b", "2"), ("a", "3")]), (true, .remove ["b"]), (false, .get ["a"])] s ∧
    (getVariables s ["a", "b", "a"]).get "a" = some "3" ∧ (getVariables s ["a", "b"]).get "b" = some "" ∧
    (getVariables s ["a"]).get "b" = none := by
  refine ⟨_, Hist.step (l := [_, _]) (Hist.step (l := [_]) (Hist.step (l := []) .init rfl) rfl) rfl, ?_, ?_, ?_⟩ <;> decide +kernel

end Registry

/-! ## Faucet -/

namespace Faucet

/-- The four test tokens created with the faucet (faucet/src/lib.rs:37-116). Only the faucet mints them (`minter` is the faucet
itself; nobody may burn them). -/
def BTC : Res := 40
def ETH : Res := 41
def USDC : Res := 42
def USDT : Res := 43

def own (r : Res) : Prop := r = BTC ∨ r = ETH ∨ r = USDC ∨ r = USDT

instance (r : Res) : Decidable (own r) := by unfold own; infer_instance

/-- The engine around the faucet: `gran r` is the smallest amount of a resource in units of 10^-18 (10^(18 - divisibility)), and
`mintable r` says that `r` is a fungible resource that the faucet may mint. The four tokens have divisibility 8, 18, 6 and 6
(faucet/src/lib.rs:38, 58, 78, 98). -/
structure FEnv where
  gran : Res → Nat
  mintable : Res → Bool
  btc : gran BTC = 10 ^ 10
  eth : gran ETH = 1
  usdc : gran USDC = 10 ^ 12
  usdt : gran USDT = 10 ^ 12
  mints : ∀ r, own r → mintable r = true

/-- faucet/src/lib.rs:16-18, plus the total supplies kept by the engine. -/
structure F where
  amounts : AMap Res Dec
  supply : AMap Res Dec

/-- `new`: faucet/src/lib.rs:21-141 (0.001 BTC, 0.2 ETH, no USDC, no USDT; nothing minted). -/
def new : F where
  amounts := (((AMap.empty.set BTC (10 ^ 15)).set ETH (2 * 10 ^ 17)).set USDC 0).set USDT 0
  supply := AMap.empty

/-- `ResourceManager::mint` for a fungible resource. -/
def mint (env : FEnv) (s : F) (r : Res) (amount : Dec) : R (F × Bucket) := do
  require (env.mintable r) .role
  let x ← mintAmount (env.gran r) amount
  let t ← dadd (s.supply.getD r 0) x
  pure ({ s with supply := s.supply.set r t }, ⟨r, x⟩)

/-- `update_mint_amount`: faucet/src/lib.rs:143-145 -/
def updateMintAmount (s : F) (r : Res) (amount : Dec) : F := { s with amounts := s.amounts.set r amount }

/-- One turn of the loop in `free_tokens`: faucet/src/lib.rs:155-159 -/
def freeOne (env : FEnv) (acc : F × List Bucket) (e : Res × Dec) : R (F × List Bucket) :=
  if 0 < e.2 then do
    let (s, b) ← mint env acc.1 e.1 e.2
    pure (s, acc.2 ++ [b])
  else pure acc

/-- `free_tokens`: faucet/src/lib.rs:153-163 -/
def freeTokens (env : FEnv) (s : F) : R (F × List Bucket) := s.amounts.entries.foldlM (freeOne env) (s, [])

/-- Calls; `external` is what others do to tokens that are not the faucet's. -/
inductive Call where
  | updateMintAmount (r : Res) (amount : Dec)
  | adminMint (r : Res) (amount : Dec)
  | freeTokens
  | external (r : Res) (supply : Dec)

/-- Who calls: with the owner badge, and meeting the (updatable) rule of the role `user`. -/
structure Who where
  owner : Bool
  user : Bool

/-- Method authorization (faucet/src/lib.rs:5-14) and methods; `admin_mint_token`: faucet/src/lib.rs:147-151. -/
def step (env : FEnv) (w : Who) (s : F) : Call → R (F × List Bucket)
  | .updateMintAmount r x => do require w.owner .role; pure (updateMintAmount s r x, [])
  | .adminMint r x => do
      require w.owner .role
      let (s, b) ← mint env s r x
      pure (s, [b])
  | .freeTokens => do require w.user .role; freeTokens env s
  | .external r x => do require (decide (¬ own r ∧ 0 ≤ x)) .assertion; pure ({ s with supply := s.supply.set r x }, [])

/-- Histories with what each call handed out. -/
inductive Hist (env : FEnv) : List (Who × Call × List Bucket) → F → Prop
  | init : Hist env [] new
  | step {l s w c s' o} : Hist env l s → step env w s c = Except.ok (s', o) → Hist env (l ++ [(w, c, o)]) s'

/-! ### Specification -/

/-- What a free handout gives of a resource: the configured amount, if positive. -/
def F.gift (s : F) (r : Res) : Dec := max ((s.amounts.get r).getD 0) 0

/-- A handout of `x` can be minted: allowed, not finer than the resource's divisibility. -/
def Mintable (env : FEnv) (r : Res) (x : Dec) : Prop := env.mintable r = true ∧ x % (env.gran r : Int) = 0

/-! ### Proof -/

theorem mint_ok {env : FEnv} {s s' : F} {r : Res} {x : Dec} {b : Bucket} (h : mint env s r x = Except.ok (s', b)) :
    Mintable env r x ∧ 0 ≤ x ∧ b = ⟨r, x⟩ ∧ s'.amounts = s.amounts ∧
    ∀ q, s'.supply.getD q 0 = s.supply.getD q 0 + if q = r then x else 0 := by
  simp only [mint, bind_ok, pure_ok, require_ok, mintAmount_ok, dadd_ok, Prod.mk.injEq] at h
  obtain ⟨-, h1, y, ⟨h2, h3, -, rfl⟩, t, ⟨-, rfl⟩, rfl, rfl⟩ := h
  refine ⟨⟨h1, h3⟩, h2, rfl, rfl, fun q => ?_⟩
  dsimp only
  unfold AMap.getD
  rw [AMap.get_set]
  by_cases hq : r = q
  · subst hq; simp
  · rw [if_neg hq, if_neg (fun e => hq e.symm), add_zero]

theorem totalOf_one (r q : Res) (x : Dec) : totalOf [⟨r, x⟩] q = if q = r then x else 0 := by
  rw [totalOf_cons, totalOf_nil, add_zero]
  by_cases h : r = q
  · subst h; simp
  · rw [if_neg h, if_neg (fun e => h e.symm)]

/-- What the loop gives out of a list of amounts. -/
theorem loop_ok {env : FEnv} : ∀ (l : List (Res × Dec)) {s s' : F} {bs bs' : List Bucket},
    l.foldlM (freeOne env) (s, bs) = Except.ok (s', bs') →
    s'.amounts = s.amounts ∧ (∃ new, bs' = bs ++ new ∧ new = (l.filter (fun e => decide (0 < e.2))).map (fun e => ⟨e.1, e.2⟩)) ∧
    (∀ e ∈ l, 0 < e.2 → Mintable env e.1 e.2) ∧
    ∀ q, s'.supply.getD q 0 - s.supply.getD q 0 = totalOf bs' q - totalOf bs q := by
  intro l
  induction l with
  | nil =>
    intro s s' bs bs' h
    simp only [List.foldlM_nil, pure_ok, Prod.mk.injEq] at h
    obtain ⟨rfl, rfl⟩ := h
    exact ⟨rfl, ⟨[], by simp, rfl⟩, by simp, fun q => by ring⟩
  | cons e l ih =>
    intro s s' bs bs' h
    rw [List.foldlM_cons, bind_ok] at h
    obtain ⟨⟨s1, bs1⟩, h1, h2⟩ := h
    obtain ⟨i1, ⟨new, i2, i3⟩, i4, i5⟩ := ih h2
    unfold freeOne at h1
    split at h1
    · rename_i hp
      simp only [bind_ok, pure_ok, Prod.mk.injEq, Prod.exists] at h1
      obtain ⟨s2, b, hm, rfl, rfl⟩ := h1
      obtain ⟨m1, m2, rfl, m4, m5⟩ := mint_ok hm
      refine ⟨by rw [i1, m4], ⟨⟨e.1, e.2⟩ :: new, by rw [i2]; simp, ?_⟩, ?_, fun q => ?_⟩
      · rw [List.filter_cons, if_pos (by simpa using hp), List.map_cons, i3]
      · intro x hx hpos
        rcases List.mem_cons.mp hx with rfl | hx
        · exact m1
        · exact i4 x hx hpos
      · have a1 := i5 q
        have a2 := m5 q
        rw [totalOf_append, totalOf_one] at a1
        linarith
    · rename_i hp
      simp only [pure_ok, Prod.mk.injEq] at h1
      obtain ⟨rfl, rfl⟩ := h1
      refine ⟨i1, ⟨new, i2, ?_⟩, ?_, i5⟩
      · rw [List.filter_cons, if_neg (by simpa using hp), i3]
      · intro x hx hpos
        rcases List.mem_cons.mp hx with rfl | hx
        · exact absurd hpos hp
        · exact i4 x hx hpos

theorem totalOf_map (q : Res) : ∀ (l : List (Res × Dec)), totalOf (l.map (fun e => ⟨e.1, e.2⟩)) q = claimed l q := by
  intro l
  induction l with
  | nil => rfl
  | cons e l ih => rw [List.map_cons, totalOf_cons, claimed_cons, ih]

theorem claimed_filter (q : Res) (m : AMap Res Dec) :
    claimed (m.entries.filter (fun e => decide (0 < e.2))) q = max ((m.get q).getD 0) 0 := by
  have h := claimed_entries (m.filterV (fun x => decide (0 < x))) q
  rw [AMap.get_filterV] at h
  change claimed (m.entries.filter (fun e => decide (0 < e.2))) q = _ at h
  rw [h]
  cases m.get q with
  | none => simp
  | some x =>
    by_cases hx : 0 < x
    · simp [Option.filter, hx, le_of_lt hx]
    · have : x ≤ 0 := not_lt.mp hx
      simp [Option.filter, hx, this]

/-- **C57, a handout gives exactly the configured amounts.** A successful `free_tokens` gives, of every resource, the configured
amount if it is positive and otherwise nothing, in one bucket per resource, and mints exactly that. -/
theorem c57_handout {env : FEnv} {w : Who} {s s' : F} {o : List Bucket} (h : step env w s .freeTokens = Except.ok (s', o)) :
    (∀ r, totalOf o r = s.gift r) ∧ (∀ b ∈ o, 0 < b.amt) ∧ (o.map Bucket.res).Nodup ∧
    s'.amounts = s.amounts ∧ ∀ r, s'.supply.getD r 0 = s.supply.getD r 0 + s.gift r := by
  simp only [step, bind_ok, require_ok, freeTokens] at h
  obtain ⟨-, -, h⟩ := h
  obtain ⟨h1, ⟨new, h2, h3⟩, -, h5⟩ := loop_ok _ h
  rw [List.nil_append] at h2
  have ht : ∀ r, totalOf o r = s.gift r := by
    intro r
    rw [h2, h3, totalOf_map, claimed_filter]; rfl
  refine ⟨ht, ?_, ?_, h1, fun r => ?_⟩
  · intro b hb
    rw [h2, h3] at hb
    obtain ⟨e, he, rfl⟩ := List.mem_map.mp hb
    simpa using (List.mem_filter.mp he).2
  · rw [h2, h3, List.map_map]
    exact List.Nodup.sublist (List.Sublist.map _ List.filter_sublist) s.amounts.nodup
  · have := h5 r
    rw [ht r, totalOf_nil] at this
    linarith

/-- **C57, availability.** If every positive amount can be minted (allowed, a multiple of the resource's smallest unit, at most 2^152 attos) and the
supplies stay within the range of `Decimal`, anybody in the role `user` gets the handout. -/
theorem c57_available {env : FEnv} {w : Who} {s : F} (hw : w.user = true)
    (hm : ∀ r x, s.amounts.get r = some x → 0 < x → Mintable env r x ∧ x ≤ MAX_MINT)
    (hs : ∀ r x, s.amounts.get r = some x → 0 < x → 0 ≤ s.supply.getD r 0 ∧ s.supply.getD r 0 + x ≤ DMAX) :
    ∃ s' o, step env w s .freeTokens = Except.ok (s', o) := by
  have key : ∀ (l : List (Res × Dec)) (s0 : F) (bs : List Bucket), (l.map Prod.fst).Nodup →
      (∀ e ∈ l, 0 < e.2 → Mintable env e.1 e.2 ∧ e.2 ≤ MAX_MINT ∧ 0 ≤ s0.supply.getD e.1 0 ∧ s0.supply.getD e.1 0 + e.2 ≤ DMAX) →
      ∃ r, l.foldlM (freeOne env) (s0, bs) = Except.ok r := by
    intro l
    induction l with
    | nil => intro s0 bs _ _; exact ⟨_, rfl⟩
    | cons e l ih =>
      intro s0 bs hn hl
      rw [List.map_cons, List.nodup_cons] at hn
      rw [List.foldlM_cons]
      by_cases hp : 0 < e.2
      · obtain ⟨⟨a1, a2⟩, a3, a4, a5⟩ := hl e (by simp) hp
        have hD : (DMIN : Int) ≤ 0 := by decide
        have hmint : mint env s0 e.1 e.2 = Except.ok
            ({ s0 with supply := s0.supply.set e.1 (s0.supply.getD e.1 0 + e.2) }, ⟨e.1, e.2⟩) := by
          simp only [mint, bind_ok, pure_ok, require_ok, mintAmount_ok, dadd_ok, Prod.mk.injEq]
          exact ⟨(), a1, e.2, ⟨hp.le, a2, a3, rfl⟩, _,
            ⟨inRange_iff.mpr ⟨by linarith, a5⟩, rfl⟩, rfl, rfl⟩
        have hone : freeOne env (s0, bs) e = Except.ok
            ({ s0 with supply := s0.supply.set e.1 (s0.supply.getD e.1 0 + e.2) }, bs ++ [⟨e.1, e.2⟩]) := by
          unfold freeOne
          rw [if_pos hp]
          dsimp only
          rw [hmint]; rfl
        rw [hone]
        refine ih _ _ hn.2 (fun x hx hpos => ?_)
        obtain ⟨b1, b2, b3, b4⟩ := hl x (by simp [hx]) hpos
        have hne : e.1 ≠ x.1 := fun h => hn.1 (h ▸ List.mem_map_of_mem hx)
        refine ⟨b1, b2, ?_, ?_⟩ <;> (dsimp only; unfold AMap.getD; rw [AMap.get_set_ne _ _ hne]) <;> assumption
      · have hone : freeOne env (s0, bs) e = Except.ok (s0, bs) := by
          unfold freeOne; rw [if_neg hp]; rfl
        rw [hone]
        exact ih _ _ hn.2 (fun x hx => hl x (by simp [hx]))
  obtain ⟨r, hr⟩ := key s.amounts.entries s [] s.amounts.nodup (fun e he hp =>
    ⟨(hm e.1 e.2 (AMap.get_mem he) hp).1, (hm e.1 e.2 (AMap.get_mem he) hp).2, hs e.1 e.2 (AMap.get_mem he) hp⟩)
  refine ⟨r.1, r.2, ?_⟩
  simp only [step, bind_ok, require_ok]
  exact ⟨(), hw, hr⟩

/-- **C57, one bad amount blocks everybody.** If a positive amount is configured that is finer than the resource's divisibility, or
for a resource the faucet may not mint, no handout succeeds until the owner corrects it. -/
theorem c57_blocked {env : FEnv} {w : Who} {s : F} {r : Res} {x : Dec} (ha : s.amounts.get r = some x) (hp : 0 < x)
    (hm : ¬ Mintable env r x) : (step env w s .freeTokens).isOk = false := by
  cases h : step env w s .freeTokens with
  | error e => rfl
  | ok y =>
    simp only [step, bind_ok, require_ok, freeTokens] at h
    obtain ⟨-, -, h⟩ := h
    obtain ⟨-, -, h4, -⟩ := loop_ok _ h
    exact absurd (h4 (r, x) (AMap.get_eq_some.mp ha) hp) hm

/-- **C57, supplies.** After any history, the supply of each of the faucet's own tokens is exactly what it has handed out. -/
theorem c57_supply {env : FEnv} {l : List (Who × Call × List Bucket)} {s : F} (h : Hist env l s) {r : Res} (hr : own r) :
    s.supply.getD r 0 = (l.map (fun x => totalOf x.2.2 r)).sum := by
  induction h with
  | init => rfl
  | @step l s w c s' o _ hs ih =>
    rw [List.map_append, List.sum_append, ← ih]
    simp only [List.map_cons, List.map_nil, List.sum_cons, List.sum_nil, add_zero]
    cases c with
    | updateMintAmount q x =>
      simp only [step, bind_ok, pure_ok, require_ok, Prod.mk.injEq] at hs
      obtain ⟨-, -, rfl, rfl⟩ := hs
      rw [totalOf_nil, add_zero]; rfl
    | adminMint q x =>
      simp only [step, bind_ok, pure_ok, require_ok, Prod.mk.injEq, Prod.exists] at hs
      obtain ⟨-, -, s2, b, hm, rfl, rfl⟩ := hs
      obtain ⟨-, -, rfl, -, h5⟩ := mint_ok hm
      rw [h5, totalOf_one]
    | freeTokens =>
      obtain ⟨h1, -, -, -, h5⟩ := c57_handout hs
      rw [h5, h1]
    | external q x =>
      simp only [step, bind_ok, pure_ok, require_ok, decide_eq_true_eq, Prod.mk.injEq] at hs
      obtain ⟨-, ⟨hq, -⟩, rfl, rfl⟩ := hs
      rw [totalOf_nil, add_zero]
      dsimp only
      unfold AMap.getD
      rw [AMap.get_set_ne _ _ (show q ≠ r from fun e => hq (by rw [e]; exact hr))]

/-- **C57, only the owner decides.** Whoever is not the owner cannot change an amount or mint a chosen amount; whoever is not in
the role `user` gets no handout. -/
theorem c57_authorized {env : FEnv} {w : Who} {s s' : F} {c : Call} {o : List Bucket} (h : step env w s c = Except.ok (s', o)) :
    ((∃ r x, c = .updateMintAmount r x ∨ c = .adminMint r x) → w.owner = true) ∧ (c = .freeTokens → w.user = true) ∧
    (w.owner = false → s'.amounts = s.amounts) := by
  cases c with
  | updateMintAmount q x =>
    simp only [step, bind_ok, pure_ok, require_ok, Prod.mk.injEq] at h
    obtain ⟨-, h, -⟩ := h
    exact ⟨fun _ => h, fun e => (by cases e), fun e => (by rw [h] at e; cases e)⟩
  | adminMint q x =>
    simp only [step, bind_ok, pure_ok, require_ok, Prod.mk.injEq] at h
    obtain ⟨-, h, -⟩ := h
    exact ⟨fun _ => h, fun e => (by cases e), fun e => (by rw [h] at e; cases e)⟩
  | freeTokens =>
    have h4 := (c57_handout h).2.2.2.1
    simp only [step, bind_ok, require_ok] at h
    obtain ⟨-, h, -⟩ := h
    refine ⟨fun ⟨_, _, e⟩ => ?_, fun _ => h, fun _ => h4⟩
    rcases e with e | e <;> cases e
  | external q x =>
    simp only [step, bind_ok, pure_ok, require_ok, Prod.mk.injEq] at h
    obtain ⟨-, -, rfl, -⟩ := h
    refine ⟨fun ⟨_, _, e⟩ => ?_, fun e => (by cases e), fun _ => rfl⟩
    rcases e with e | e <;> cases e

/-- An engine. -/
def tenv : FEnv where
  gran r := if r = BTC then 10 ^ 10 else if r = USDC ∨ r = USDT then 10 ^ 12 else 1
  mintable r := decide (own r)
  btc := rfl
  eth := rfl
  usdc := rfl
  usdt := rfl
  mints := fun r h => by simpa using h

/-- The faucet as created hands out 0.001 BTC and 0.2 ETH to anybody; after the owner asks for 1.5 units of the last place of USDC
nobody gets anything. -/
example : (∃ s' , step tenv ⟨false, true⟩ new .freeTokens = Except.ok (s', [⟨BTC, 10 ^ 15⟩, ⟨ETH, 2 * 10 ^ 17⟩])) ∧
    (step tenv ⟨false, true⟩ (updateMintAmount new USDC (15 * 10 ^ 11)) .freeTokens).isOk = false := by
  refine ⟨⟨_, rfl⟩, c57_blocked (r := USDC) (x := 15 * 10 ^ 11) (by decide +kernel) (by decide) (by unfold Mintable; decide +kernel)⟩

end Faucet

end Perp
