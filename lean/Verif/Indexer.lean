import Verif.Events
import Verif.Positions
import Verif.Adl
import Verif.Liquidation
import Verif.TradeFair
import Verif.Tokens

/-!
# What the event log tells (C59)

An off-chain indexer sees nothing but the events.  `View` is what it can keep up to date by reading
them one by one, with the obvious meaning of each event and no knowledge of the contract's state;
`c59_indexer` says that after any history this picture is the ledger's.
-/

namespace Perp

/-! ## Specification: reading the log -/

/-- What an indexer knows of one account. -/
@[ext] structure AccountView where
  /-- `none`: not created; otherwise the referral it was created with -/
  link : Option (Option RefId)
  requests : Nat → Option KeeperRequest
  validStart : Nat
  size : PairId → Int
  collateral : Res → Int

/-- What an indexer knows. -/
@[ext] structure View where
  accounts : Addr → AccountView
  pool : PairId → Option PoolPosition
  exchange : ExchangeConfig
  pairs : PairId → Option PairConfig
  collaterals : Res → Option CollateralConfig
  lpSupply : Int

def AccountView.empty : AccountView where
  link := none
  requests := fun _ => none
  validStart := 0
  size := fun _ => 0
  collateral := fun _ => 0

/-- Before the first event. -/
def View.initial : View where
  accounts := fun _ => AccountView.empty
  pool := fun _ => none
  exchange := ExchangeConfig.dflt
  pairs := fun _ => none
  collaterals := fun _ => none
  lpSupply := 0

/-- The listed entries replace what was known; of two entries for one key the later counts. -/
def overwrite {K V : Type} [DecidableEq K] (l : List (K × V)) (f : K → Option V) : K → Option V :=
  l.foldl (fun f e k => if k = e.1 then some e.2 else f k) f

/-- The total listed for a key. -/
def listed {K : Type} [DecidableEq K] (l : List (K × Dec)) (k : K) : Int :=
  ((l.filter (fun e => decide (e.1 = k))).map Prod.snd).sum

/-- A change to one account. -/
def View.onAccount (u : View) (a : Addr) (f : AccountView → AccountView) : View :=
  { u with accounts := fun b => if b = a then f (u.accounts b) else u.accounts b }

/-- The meaning of an event. -/
def View.read (u : View) : Event → View
  | .signalUpgrade _ => u
  | .exchangeConfig c => { u with exchange := c }
  | .pairConfigs cs => { u with pairs := overwrite (cs.map (fun c => (c.pairId, c))) u.pairs }
  | .collateralConfigs cs => { u with collaterals := overwrite cs u.collaterals }
  | .collateralRemoval r => { u with collaterals := fun q => if q = r then none else u.collaterals q }
  | .pairUpdates l => { u with pool := overwrite l u.pool }
  | .accountCreation a rid => u.onAccount a (fun x => { x with link := some rid })
  | .requests a l => u.onAccount a (fun x => { x with requests := overwrite l x.requests })
  | .validStart a n => u.onAccount a (fun x => { x with validStart := n })
  | .liquidity e => { u with lpSupply := u.lpSupply + e.lpAmount }
  | .addCollateral a l => u.onAccount a (fun x => { x with collateral := fun r => x.collateral r + listed l r })
  | .removeCollateral a _ l =>
      u.onAccount a (fun x => { x with collateral := fun r => x.collateral r - listed l r })
  | .order a e _ _ _ => u.onAccount a (fun x =>
      { x with size := fun p => if p = e.pair then x.size p + e.amountClose + e.amountOpen else x.size p })
  | .swapDebt a e => u.onAccount a (fun x =>
      { x with collateral := fun r => if r = e.resource then x.collateral r - e.amount else x.collateral r })
  | .liquidate a l _ _ e => u.onAccount a (fun x =>
      { x with size := fun p => x.size p - listed l p
               collateral := fun r => x.collateral r - listed e.collateralAmounts r })
  | .adl a e => u.onAccount a (fun x =>
      { x with size := fun p => if p = e.pair then x.size p + e.amountClose else x.size p })

/-- Reading a whole log. -/
def View.readAll (u : View) (l : List Event) : View := l.foldl View.read u

/-- The picture of an account is right: it exists as the picture says, with these requests, this
start of the valid ones, these position sizes and these collateral balances. -/
def Shows (x : Option Account) (v : AccountView) : Prop :=
  match x with
  | none => v = AccountView.empty
  | some acc => v.link = some acc.referralId ∧ (∀ i, v.requests i = acc.requests[i]?) ∧
      v.validStart = acc.validStart ∧ (∀ p, v.size p = acc.size p) ∧
      ∀ r, r ≠ BASE → v.collateral r = (acc.collateralBalances.get r).getD 0

/-- A table of announced entries against the stored, compressed ones. -/
def Stored {K C D : Type} (comp : C → R D) (f : K → Option C) (m : K → Option D) : Prop :=
  ∀ k, match f k with
    | none => m k = none
    | some c => ∃ d, comp c = Except.ok d ∧ m k = some d

/-- The picture is right: for every account; for the record the pool keeps of every pair; for the
configuration, which is stored compressed; and for the supply of pool shares. -/
structure Tracks (s : State) (u : View) : Prop where
  accounts : ∀ a, Shows (s.accounts.get a) (u.accounts a)
  pool : ∀ p, u.pool p = s.pool.positions.get p
  exchange : u.exchange.compress = Except.ok s.config.exchange
  pairs : Stored PairConfig.compress u.pairs s.config.pairs.get
  collaterals : Stored CollateralConfig.compress u.collaterals s.config.collaterals.get
  lpSupply : u.lpSupply = s.lpSupply

/-! ## Lists -/

theorem overwrite_nil {K V : Type} [DecidableEq K] (f : K → Option V) : overwrite [] f = f := rfl

theorem overwrite_append {K V : Type} [DecidableEq K] (l m : List (K × V)) (f : K → Option V) :
    overwrite (l ++ m) f = overwrite m (overwrite l f) := by simp [overwrite]

theorem overwrite_cons {K V : Type} [DecidableEq K] (e : K × V) (l : List (K × V)) (f : K → Option V) :
    overwrite (e :: l) f = overwrite l (fun k => if k = e.1 then some e.2 else f k) := rfl

theorem overwrite_nodup {K V : Type} [DecidableEq K] (q : K) : ∀ (l : List (K × V)), (l.map Prod.fst).Nodup →
    ∀ f : K → Option V, overwrite l f q = (AMap.lget q l).or (f q) := by
  intro l
  induction l with
  | nil => intro _ f; simp [overwrite, AMap.lget]
  | cons e l ih =>
    obtain ⟨k, x⟩ := e
    intro hn f
    simp only [List.map_cons, List.nodup_cons] at hn
    rw [overwrite_cons, ih hn.2]
    by_cases hk : k = q
    · subst hk
      have : AMap.lget k l = none := AMap.lget_eq_none.mpr hn.1
      simp [AMap.lget, this]
    · simp [AMap.lget, hk, Ne.symm hk]

theorem overwrite_entries {K V : Type} [DecidableEq K] (m : AMap K V) (f : K → Option V) (q : K) :
    overwrite m.entries f q = (m.get q).or (f q) := overwrite_nodup q _ m.nodup f

theorem lget_filter {K V : Type} [DecidableEq K] (P : K → Bool) (q : K) (l : List (K × V)) :
    AMap.lget q (l.filter (fun e => P e.1)) = if P q then AMap.lget q l else none := by
  induction l with
  | nil => simp [AMap.lget]
  | cons e l ih =>
    obtain ⟨k, x⟩ := e
    by_cases hk : k = q
    · subst hk
      by_cases hP : P k = true
      · simp [hP, AMap.lget]
      · simp [hP, ih]
    · by_cases hP : P k = true
      · simp [hP, AMap.lget, hk, ih]
      · simp [hP, AMap.lget, hk, ih]

theorem lget_mapSnd {K V W : Type} [DecidableEq K] (f : V → W) (q : K) (l : List (K × V)) :
    AMap.lget q (l.map (fun e => (e.1, f e.2))) = (AMap.lget q l).map f := by
  induction l with
  | nil => rfl
  | cons e l ih =>
    obtain ⟨k, x⟩ := e
    by_cases hk : k = q
    · subst hk; simp [AMap.lget]
    · simp [AMap.lget, hk, ih]

theorem overwrite_filter {K V : Type} [DecidableEq K] (m : AMap K V) (P : K → Bool) (f : K → Option V) (q : K) :
    overwrite (m.entries.filter (fun e => P e.1)) f q = if P q then (m.get q).or (f q) else f q := by
  rw [overwrite_nodup q _ (m.nodup.sublist (List.filter_sublist.map _)), lget_filter]
  split
  · rfl
  · simp

theorem overwrite_mapIdx {V : Type} (l : List V) (n : Nat) : ∀ (base : List V), base.length = n → ∀ i,
    overwrite (l.mapIdx (fun i r => (i + n, r))) (fun i => base[i]?) i = (base ++ l)[i]? := by
  induction l using List.reverseRecOn with
  | nil => intro base _ i; simp [overwrite]
  | append_singleton l x ih =>
    intro base hb i
    rw [List.mapIdx_append, overwrite_append]
    simp only [List.mapIdx_cons, List.mapIdx_nil, overwrite_cons, overwrite_nil]
    rw [ih base hb, ← List.append_assoc]
    by_cases hi : i = 0 + l.length + n
    · subst hi
      simp [List.getElem?_append, ← hb]
    · rw [if_neg hi, List.getElem?_append (l₁ := base ++ l)]
      split
      · rfl
      · rename_i hlt
        simp only [List.length_append] at hlt
        rw [List.getElem?_eq_none (by simp only [List.length_append]; omega),
          List.getElem?_eq_none (by simp only [List.length_append, List.length_singleton]; omega)]

theorem listed_nil {K : Type} [DecidableEq K] (k : K) : listed [] k = 0 := rfl

theorem listed_cons {K : Type} [DecidableEq K] (e : K × Dec) (l : List (K × Dec)) (k : K) :
    listed (e :: l) k = (if e.1 = k then e.2 else 0) + listed l k := by
  unfold listed
  by_cases h : e.1 = k <;> simp [h]

theorem listed_append {K : Type} [DecidableEq K] (l m : List (K × Dec)) (k : K) :
    listed (l ++ m) k = listed l k + listed m k := by
  induction l with
  | nil => simp [listed_nil]
  | cons e l ih => rw [List.cons_append, listed_cons, listed_cons, ih]; ring

theorem listed_nodup {K : Type} [DecidableEq K] (k : K) : ∀ (l : List (K × Dec)), (l.map Prod.fst).Nodup →
    listed l k = (AMap.lget k l).getD 0 := by
  intro l
  induction l with
  | nil => intro _; simp [listed, AMap.lget]
  | cons e l ih =>
    obtain ⟨j, x⟩ := e
    intro hn
    simp only [List.map_cons, List.nodup_cons] at hn
    rw [listed_cons, ih hn.2]
    by_cases hj : j = k
    · subst hj
      have : AMap.lget j l = none := AMap.lget_eq_none.mpr hn.1
      simp [AMap.lget, this]
    · simp [AMap.lget, hj]

theorem readAll_append (u : View) (l m : List Event) : u.readAll (l ++ m) = (u.readAll l).readAll m := by
  simp [View.readAll]

theorem readAll_cons (u : View) (e : Event) (l : List Event) : u.readAll (e :: l) = (u.read e).readAll l := rfl

theorem readAll_nil (u : View) : u.readAll [] = u := rfl

theorem readAll_requests (u : View) (v : VAccount) : u.readAll v.requestEvents =
    u.onAccount v.addr (fun x => { x with requests := overwrite v.requestList x.requests }) := by
  unfold VAccount.requestEvents
  by_cases h : v.requestList = []
  · rw [if_pos h, h]
    apply View.ext <;> try rfl
    funext b
    simp only [readAll_nil, View.onAccount, overwrite_nil]
    split <;> rfl
  · rw [if_neg h]; rfl

theorem readAll_pairs (u : View) (v : VPool) : u.readAll v.pairEvents =
    { u with pool := overwrite v.updateList u.pool } := by
  unfold VPool.pairEvents
  by_cases h : v.updateList = []
  · rw [if_pos h, h]; rfl
  · rw [if_neg h]; rfl

/-! ## Writing back -/

theorem tracks_pool {v : VPool} {f : PairId → Option PoolPosition} (h : ∀ p, f p = v.comp.positions.get p) (p : PairId) :
    overwrite v.updateList f p = v.realPositions.get p := by
  rw [VPool.realPositions_get]
  unfold VPool.updateList
  rw [overwrite_filter v.positions (fun p => decide (p ∈ v.updated)) f p, h]
  simp only [decide_eq_true_eq]

theorem realize_bounds {v : VAccount} {acc : Account} (h : v.realize = Except.ok acc) :
    ∀ e ∈ v.requestUpdates.entries, e.1 < v.comp.requests.length + v.requestAdditions.length := by
  unfold VAccount.realize at h
  simp only [bind_ok] at h
  obtain ⟨rs, h, -⟩ := h
  have key : ∀ (l : List (Nat × KeeperRequest)) (b rs : List KeeperRequest), l.foldlM requestUpdate b = Except.ok rs →
      ∀ e ∈ l, e.1 < b.length := by
    intro l
    induction l with
    | nil => intro _ _ _ e he; cases he
    | cons x l ih =>
      intro b rs h e he
      simp only [List.foldlM_cons, bind_ok, requestUpdate, require_ok, pure_ok, decide_eq_true_eq] at h
      obtain ⟨_, ⟨-, h1, rfl⟩, h⟩ := h
      rcases List.mem_cons.mp he with rfl | he
      · exact h1
      · have := ih _ _ h e he
        simpa using this
  intro e he
  have := key _ _ _ h e he
  simpa using this

theorem tracks_requests {v : VAccount} {acc : Account} {old : List KeeperRequest} {f : Nat → Option KeeperRequest}
    (h : v.realize = Except.ok acc) (h1 : v.comp.requests = old) (h2 : v.requestsLen = old.length)
    (hf : ∀ i, f i = old[i]?) (i : Nat) : overwrite v.requestList f i = acc.requests[i]? := by
  rw [realize_requests h, VAccount.reqs_get]
  have hb := realize_bounds h
  unfold VAccount.requestList
  have hf' : f = fun i => old[i]? := funext hf
  rw [overwrite_append, overwrite_entries, hf', h2, overwrite_mapIdx _ _ _ rfl, h1]
  cases hg : v.requestUpdates.get i with
  | none => simp
  | some r =>
    have := hb (i, r) (AMap.get_eq_some.mp hg)
    rw [h1] at this
    simp [this]

theorem onAccount_twice (u : View) (a : Addr) (f g : AccountView → AccountView) :
    (u.onAccount a f).onAccount a g = u.onAccount a (fun x => g (f x)) := by
  apply View.ext <;> try rfl
  funext b
  simp only [View.onAccount]
  split <;> rfl

theorem onAccount_pool (u : View) (a : Addr) (f : AccountView → AccountView) (q : PairId → Option PoolPosition) :
    ({ u with pool := q } : View).onAccount a f = { u.onAccount a f with pool := q } := rfl

/-- The picture after a call that changes one account and the pool. -/
theorem Tracks.account {s s' : State} {u : View} {a : Addr} {f : AccountView → AccountView}
    {q : PairId → Option PoolPosition} (T : Tracks s u)
    (hoth : ∀ b, b ≠ a → s'.accounts.get b = s.accounts.get b)
    (hsh : Shows (s'.accounts.get a) (f (u.accounts a)))
    (hp : ∀ p, q p = s'.pool.positions.get p) (hc : s'.config = s.config) (hl : s'.lpSupply = s.lpSupply) :
    Tracks s' { u.onAccount a f with pool := q } := by
  refine ⟨fun b => ?_, hp, ?_, ?_, ?_, ?_⟩
  · show Shows _ (if b = a then f (u.accounts b) else u.accounts b)
    by_cases hb : b = a
    · subst hb; rw [if_pos rfl]; exact hsh
    · rw [if_neg hb, hoth b hb]; exact T.accounts b
  · rw [hc]; exact T.exchange
  · rw [hc]; exact T.pairs
  · rw [hc]; exact T.collaterals
  · rw [hl]; exact T.lpSupply

/-! ## Calls of the account holder -/

/-- The account as it is written back, in so far as the requests are concerned. -/
structure Buffered (a : Addr) (acc : Account) (v : VAccount) : Prop where
  addr : v.addr = a
  requests : v.comp.requests = acc.requests
  len : v.requestsLen = acc.requests.length
  ref : v.comp.referralId = acc.referralId

theorem buffered_load {s : State} {a : Addr} {v : VAccount} {acc : Account} (h : s.load a = Except.ok v)
    (ha : s.accounts.get a = some acc) : Buffered a acc v := by
  obtain ⟨acc0, rd, hg, -, rfl⟩ := load_ok h
  rw [ha] at hg; cases hg
  exact ⟨rfl, rfl, rfl, rfl⟩

theorem Buffered.req {a : Addr} {acc : Account} {v v' : VAccount} (h : Buffered a acc v) (hr : ReqOnly v v') :
    Buffered a acc v' := by
  unfold ReqOnly at hr
  rw [hr]
  exact ⟨h.addr, h.requests, h.len, h.ref⟩

theorem Buffered.vb {a : Addr} {acc : Account} {v : VAccount} (h : Buffered a acc v) (x : Dec) :
    Buffered a acc { v with vb := x } := ⟨h.addr, h.requests, h.len, h.ref⟩

theorem Buffered.auth {a : Addr} {acc : Account} {v : VAccount} (h : Buffered a acc v) (p : AMap Rule Permissions)
    (l : Level) (r : Rule) : Buffered a acc (setAuth p v l r).2 := by
  cases l <;> exact ⟨h.addr, h.requests, h.len, h.ref⟩

theorem Buffered.path {a : Addr} {acc : Account} {ex : ExchangeConfig} {w w' : W} {x : Dec} (h : Buffered a acc w.acc)
    (hp : WPath ex w w' x) : Buffered a acc w'.acc := by
  obtain ⟨h1, -, h3, h4, -⟩ := hp.frame
  exact ⟨h1.trans h.addr, by rw [h4]; exact h.requests, h3.trans h.len, by rw [h4]; exact h.ref⟩

theorem Buffered.oath {a : Addr} {acc : Account} {s s' : State} {v v' : VAccount} {oath : Option Bucket}
    {ids plain : List PairId} {cfg : VConfig} (h : Buffered a acc v)
    (hp : payOath env s v oath ids plain = Except.ok (s', v', cfg)) : Buffered a acc v' := by
  obtain ⟨-, rfl, -, -, -⟩ := payOath_frame hp
  exact h.vb _

/-- The log of a holder's call is the request event of the account that is written back. -/
theorem holderL {env : Env} {cl : Caller} {s s' : State} {op : Op} {o : Out} {l : List Event} {a : Addr} {acc : Account}
    (h : bodyL env cl s op = Except.ok (s', o, l)) (hop : op.account = some a) (hh : op.holder = true)
    (ha : s.accounts.get a = some acc) :
    ∃ v acc', Buffered a acc v ∧ v.realize = Except.ok acc' ∧ s'.accounts.get a = some acc' ∧ l = v.requestEvents ∧
      s'.lpSupply = s.lpSupply := by
  have finish : ∀ {s1 s2 : State} {v : VAccount}, Buffered a acc v → s1.commitAcc v = Except.ok s2 →
      s1.lpSupply = s.lpSupply → ∃ v' acc', Buffered a acc v' ∧ v'.realize = Except.ok acc' ∧
        s2.accounts.get a = some acc' ∧ v.requestEvents = v'.requestEvents ∧ s2.lpSupply = s.lpSupply := by
    intro s1 s2 v hb hc hl
    obtain ⟨acc', refs, h1, -, rfl⟩ := commitAcc_ok.mp hc
    exact ⟨v, acc', hb, h1, by simp only [hb.addr, AMap.get_set_self], rfl, hl⟩
  have lp : ∀ {s1 : State} {v v1 : VAccount} {oath ids plain cfg}, payOath env s v oath ids plain = Except.ok (s1, v1, cfg) →
      s1.lpSupply = s.lpSupply := by
    intro s1 v v1 oath ids plain cfg hp
    obtain ⟨rfl, -, -, -, -⟩ := payOath_frame hp
    rfl
  cases op <;> first | (cases hh; done) | skip
  case createRecoveryKey oath a' =>
    cases hop
    simp only [bodyL, createRecoveryKeyL, bind_ok, pure_ok, Prod.mk.injEq] at h
    obtain ⟨v, hv, ⟨⟩, -, ⟨s1, v1, cfg⟩, hp, s2, hc, rfl, -, rfl⟩ := h
    exact finish (((buffered_load hv ha).oath hp).auth _ _ _) hc (show s1.lpSupply = _ from lp hp)
  case addAuthRule oath a' lv n =>
    cases hop
    simp only [bodyL, addAuthRuleL, bind_ok, pure_ok, Prod.mk.injEq] at h
    obtain ⟨v, hv, ⟨⟩, -, ⟨s1, v1, cfg⟩, hp, lv', -, s2, hc, rfl, -, rfl⟩ := h
    exact finish (((buffered_load hv ha).oath hp).auth _ _ _) hc (show s1.lpSupply = _ from lp hp)
  case setLevelAuth oath a' lv r =>
    cases hop
    simp only [bodyL, setLevelAuthL, bind_ok, pure_ok, Prod.mk.injEq] at h
    obtain ⟨v, hv, ⟨⟩, -, ⟨s1, v1, cfg⟩, hp, s2, hc, rfl, -, rfl⟩ := h
    exact finish (((buffered_load hv ha).oath hp).auth _ _ _) hc (show s1.lpSupply = _ from lp hp)
  case removeCollateralRequest oath e a' t c =>
    cases hop
    simp only [bodyL, removeCollateralRequestL, bind_ok, pure_ok, Prod.mk.injEq] at h
    obtain ⟨v, hv, ⟨⟩, -, ⟨s1, v1, cfg⟩, hp, ⟨⟩, -, v2, hpush, ⟨⟩, -, s2, hc, rfl, -, rfl⟩ := h
    exact finish (((buffered_load hv ha).oath hp).req (pushRequest_reqOnly hpush)) hc (lp hp)
  case marginOrderRequest oath a' q act can st =>
    cases hop
    simp only [bodyL, marginOrderRequestL, bind_ok, pure_ok, Prod.mk.injEq] at h
    obtain ⟨v, hv, ⟨⟩, -, ⟨s1, v1, cfg⟩, hp, ⟨⟩, -, ⟨⟩, -, ⟨⟩, -, _, -, _, -, v2, hpush, ⟨⟩, -, s2, hc, rfl, -, rfl⟩ := h
    exact finish (((buffered_load hv ha).oath hp).req (pushRequest_reqOnly hpush)) hc (lp hp)
  case marginOrderTpSlRequest oath a' q tp sl =>
    cases hop
    simp only [bodyL, marginOrderTpSlRequestL, bind_ok, pure_ok, Prod.mk.injEq] at h
    obtain ⟨v, hv, ⟨⟩, -, ⟨s1, v1, cfg⟩, hp, ⟨⟩, -, v2, hpush, v3, hx, v4, hy, ⟨⟩, -, s2, hc, rfl, -, rfl⟩ := h
    have hb := ((buffered_load hv ha).oath hp).req (pushRequest_reqOnly hpush)
    have hb := Buffered.path (w := { pool := VPool.new s.pool s.now [], acc := v2, dist := s.dist })
      (w' := { pool := VPool.new s.pool s.now [], acc := v3, dist := s.dist }) hb
      (pushExit_path (ex := ExchangeConfig.dflt) hx _ _)
    have hb := Buffered.path (w := { pool := VPool.new s.pool s.now [], acc := v3, dist := s.dist })
      (w' := { pool := VPool.new s.pool s.now [], acc := v4, dist := s.dist }) hb
      (pushExit_path (ex := ExchangeConfig.dflt) hy _ _)
    exact finish hb hc (lp hp)
  case cancelRequests oath a' is =>
    cases hop
    simp only [bodyL, opCancelRequestsL, bind_ok, pure_ok, Prod.mk.injEq] at h
    obtain ⟨v, hv, ⟨⟩, -, ⟨s1, v1, cfg⟩, hp, v2, hcn, s2, hc, rfl, -, rfl⟩ := h
    exact finish (((buffered_load hv ha).oath hp).req (cancelRequests_reqOnly hcn)) hc (lp hp)

theorem ReqEffect.start {s : State} {op : Op} {a : Addr} {acc acc' : Account} {o : Out} (h : ReqEffect s op a acc acc' o)
    (hn : ∀ p u, op ≠ .liquidate a p u) : acc'.validStart = acc.validStart := by
  cases h with
  | same _ h => exact h
  | pushed _ _ h => exact h
  | cancelled _ _ _ h => exact h
  | liquidated p u h => exact absurd h (hn p u)
  | expired _ _ _ _ _ _ _ _ _ _ h => exact h
  | executed _ _ _ _ _ _ _ _ _ _ h => exact h

theorem tracks_holder {env : Env} {cl : Caller} {s s' : State} {op : Op} {o : Out} {l : List Event} {a : Addr} {u : View}
    (h0 : Reach env s) (h : bodyL env cl s op = Except.ok (s', o, l)) (hop : op.account = some a) (hh : op.holder = true)
    (T : Tracks s u) : Tracks s' (u.readAll l) := by
  have hb := bodyL_body h
  obtain ⟨acc, ha⟩ : ∃ acc, s.accounts.get a = some acc := by
    rcases body_account hb hop with ⟨lr, -, acc, hg⟩ | ⟨g, rule, rid, ⟨oath, t, c, rfl⟩, -, -⟩
    · exact ⟨acc, hg⟩
    · cases hh
  obtain ⟨acc1, he⟩ := holder_effect hb hop hh ha
  obtain ⟨acc2, hg2, hq⟩ := body_requests hb (reach_requestsOk h0) ha
  obtain ⟨v, acc', hv, hr, hg, rfl, hl⟩ := holderL h hop hh ha
  have e1 := he.account
  rw [hg] at e1 hg2; cases e1; cases hg2
  have hs := T.accounts a
  rw [ha] at hs
  obtain ⟨s1, s2, s3, s4, s5⟩ := hs
  rw [readAll_requests, hv.addr]
  refine T.account (q := u.pool) (f := fun x => { x with requests := overwrite v.requestList x.requests })
    (fun b hb' => body_accounts hb b (by rw [hop]; simpa using fun e => hb' e.symm)) ?_ ?_
    he.config hl
  · rw [hg]
    refine ⟨by rw [he.ref]; exact s1, tracks_requests hr hv.requests hv.len s2, ?_, ?_, ?_⟩
    · rw [hq.start (by intro p u; rintro rfl; cases hh)]; exact s3
    · intro p; refine (s4 p).trans ?_; unfold Account.size; rw [he.positions]
    · intro r hr; rw [he.balances]; exact s5 r hr
  · rw [he.pool]; exact T.pool

/-! ## Deposits -/

theorem balanceAdd_listed {bs : List Bucket} (r : Res) : ∀ {m m' : AMap Res Dec}, balanceAddBatch m bs = Except.ok m' →
    (m'.get r).getD 0 = (m.get r).getD 0 + listed (amountsOf bs) r := by
  unfold balanceAddBatch
  induction bs with
  | nil => intro m m' h; simp only [List.foldlM_nil, pure_ok] at h; subst h; simp [amountsOf, listed_nil]
  | cons b bs ih =>
    intro m m' h
    simp only [List.foldlM_cons, bind_ok] at h
    obtain ⟨m1, h1, h⟩ := h
    rw [ih h, balanceAdd_get h1]
    simp only [amountsOf, List.map_cons, listed_cons]
    split
    · simp only [Option.getD_some]; ring
    · ring

theorem balanceSub_listed {bs : List Bucket} (r : Res) : ∀ {m m' : AMap Res Dec}, balanceSubBatch m bs = Except.ok m' →
    (m'.get r).getD 0 = (m.get r).getD 0 - listed (amountsOf bs) r := by
  unfold balanceSubBatch
  induction bs with
  | nil => intro m m' h; simp only [List.foldlM_nil, pure_ok] at h; subst h; simp [amountsOf, listed_nil]
  | cons b bs ih =>
    intro m m' h
    simp only [List.foldlM_cons, bind_ok] at h
    obtain ⟨m1, h1, h⟩ := h
    obtain ⟨x, hx, hg⟩ := balanceSub_get h1
    rw [ih h, hg]
    simp only [amountsOf, List.map_cons, listed_cons]
    split
    · rename_i e; subst e
      rw [hx]
      split
      · simp only [Option.getD_none, Option.getD_some]; omega
      · simp only [Option.getD_some]; omega
    · ring

theorem listed_notBase (bs : List Bucket) {r : Res} (hr : r ≠ BASE) :
    listed (amountsOf (bs.filter (fun b => b.res ≠ BASE))) r = listed (amountsOf bs) r := by
  induction bs with
  | nil => rfl
  | cons b bs ih =>
    by_cases hb : b.res = BASE
    · simp only [amountsOf, List.map_cons, listed_cons] at *
      rw [List.filter_cons_of_neg (by simpa using hb), ih, if_neg (by rw [hb]; exact Ne.symm hr)]
      ring
    · simp only [amountsOf, List.map_cons, listed_cons] at *
      rw [List.filter_cons_of_pos (by simpa using hb), List.map_cons, listed_cons, ih]

theorem listed_onlyBase {bs : List Bucket} (h : ∀ b ∈ bs, b.res = BASE) {r : Res} (hr : r ≠ BASE) :
    listed (amountsOf bs) r = 0 := by
  induction bs with
  | nil => rfl
  | cons b bs ih =>
    simp only [amountsOf, List.map_cons, listed_cons]
    rw [if_neg (by rw [h b (List.mem_cons_self ..)]; exact Ne.symm hr)]
    have := ih (fun x hx => h x (List.mem_cons_of_mem _ hx))
    simp only [amountsOf] at this
    rw [this]; ring

theorem addBases_start {l : List Bucket} {w w' : W} (h : l.foldlM addBase w = Except.ok w') :
    w'.acc.validStart = w.acc.validStart := by
  refine foldlM_rel (P := fun a b : W => b.acc.validStart = a.acc.validStart)
    (fun _ => rfl) (fun a b c h1 h2 => h2.trans h1) ?_ _ h
  intro w b w' h
  simp only [addBase, bind_ok] at h
  obtain ⟨pool, -, hs⟩ := h
  rw [settleAccount_ok hs]

theorem realize_ref {v : VAccount} {acc : Account} (h : v.realize = Except.ok acc) :
    acc.referralId = v.comp.referralId := by
  unfold VAccount.realize at h
  simp only [bind_ok, pure_ok] at h
  obtain ⟨rs, -, rfl⟩ := h
  rfl

theorem realize_start {v : VAccount} {acc : Account} (h : v.realize = Except.ok acc) :
    acc.validStart = if v.validStart > v.comp.validStart then v.validStart else v.comp.validStart := by
  unfold VAccount.realize at h
  simp only [bind_ok, pure_ok] at h
  obtain ⟨rs, -, rfl⟩ := h
  rfl

theorem realize_positions {v : VAccount} {acc : Account} (h : v.realize = Except.ok acc) :
    acc.positions = v.realPositions := by
  unfold VAccount.realize at h
  simp only [bind_ok, pure_ok] at h
  obtain ⟨rs, -, rfl⟩ := h
  rfl

/-- What a deposit does to the loaded account. -/
theorem deposit_parts {env : Env} {s s1 : State} {a : Addr} {acc acc' : Account} {v : VAccount} {oath : Option Bucket}
    {tokens : List Bucket} {w : W} (hv : s.load a = Except.ok v) (ha : s.accounts.get a = some acc)
    (h : depositTokens env s v oath tokens = Except.ok (s1, w)) (hr : w.acc.realize = Except.ok acc') :
    Buffered a acc w.acc ∧ w.pool.comp.positions = s.pool.positions ∧ acc'.validStart = acc.validStart ∧
      acc'.positions = acc.positions ∧
      (∀ r, r ≠ BASE → (acc'.collateralBalances.get r).getD 0 =
        (acc.collateralBalances.get r).getD 0 + listed (amountsOf tokens) r) ∧
      s1.accounts = s.accounts ∧ s1.config = s.config ∧ s1.lpSupply = s.lpSupply := by
  have hi := depositTokens_posIdle h
  obtain ⟨cfg, ids, w0, -, hw0, rfl, -, -, rfl, -⟩ := depositTokens_ok h
  have hp := addCollateral_path (ex := ExchangeConfig.dflt) hw0
  have hb := (Buffered.path (w := { pool := VPool.new s.pool s.now ids, acc := v, dist := s.dist })
    (buffered_load hv ha) hp).vb (w0.acc.vb - oathAmt oath)
  obtain ⟨-, -, -, h4, h5⟩ := hp.frame
  obtain ⟨w1, ac, hbb, -, hdc, -, rfl⟩ := addCollateral_ok hw0
  have e2 := depositCollateral_put hdc
  rw [addBases_collPart hbb] at e2
  have e3 := addBases_start hbb
  obtain ⟨acc0, rd, hg, -, rfl⟩ := load_ok hv
  rw [ha] at hg; cases hg
  refine ⟨hb, ?_, ?_, posIdle_realize hi rfl hr, ?_, rfl, rfl, rfl⟩
  · simp only at h5 ⊢; rw [h5]; rfl
  · rw [realize_start hr]
    simp only [VAccount.depositCollateral, bind_ok, pure_ok] at hdc
    obtain ⟨_, -, _, -, _, -, rfl⟩ := hdc
    simp only at h4 e3 ⊢
    have h4 := congrArg Account.validStart h4
    simp only at h4
    rw [e3, h4]; simp
  · intro r hr'
    have := balanceAdd_listed r e2.comp
    rw [listed_notBase _ hr'] at this
    rw [(realize_coll hr).2]
    exact this

theorem tracks_deposit {env : Env} {cl : Caller} {s s' : State} {oath : Option Bucket} {a : Addr} {tokens : List Bucket}
    {o : Out} {l : List Event} {u : View} (h : bodyL env cl s (.addCollateral oath a tokens) = Except.ok (s', o, l))
    (T : Tracks s u) : Tracks s' (u.readAll l) := by
  have hb := bodyL_body h
  simp only [bodyL, opAddCollateralL, bind_ok, pure_ok, Prod.mk.injEq] at h
  obtain ⟨⟨⟩, -, v, hv, ⟨⟩, -, ⟨s1, w⟩, hd, s2, hc, rfl, -, rfl⟩ := h
  obtain ⟨acc, rd, ha, -, -⟩ := load_ok hv
  obtain ⟨acc', refs, hr, -, rfl⟩ := commit_ok.mp hc
  obtain ⟨b1, b2, b3, b4, b5, -, b7, b8⟩ := deposit_parts hv ha hd hr
  have hoth : ∀ b, b ≠ a → _ := fun b hb' => body_accounts hb b (by simpa [Op.account] using fun e => hb' e.symm)
  rw [readAll_cons, readAll_append, readAll_pairs, readAll_requests]
  simp only [b1.addr] at hoth ⊢
  show Tracks _ (View.onAccount { u.onAccount a _ with pool := _ } a _)
  rw [onAccount_pool, onAccount_twice]
  have hs := T.accounts a
  rw [ha] at hs
  obtain ⟨s1, s2, s3, s4, s5⟩ := hs
  refine T.account hoth ?_ ?_ b7 b8
  · simp only [AMap.get_set_self]
    refine ⟨by rw [realize_ref hr, b1.ref]; exact s1, tracks_requests hr b1.requests b1.len s2, by rw [b3]; exact s3, ?_, ?_⟩
    · intro p; refine (s4 p).trans ?_; unfold Account.size; rw [b4]
    · intro r hr'; rw [b5 r hr', ← s5 r hr']
  · exact tracks_pool (by intro p; rw [b2]; exact T.pool p)

theorem tracks_create {env : Env} {cl : Caller} {s s' : State} {oath : Option Bucket} {a : Addr} {rule : Rule}
    {tokens : List Bucket} {code : Option Nat} {o : Out} {l : List Event} {u : View}
    (h : bodyL env cl s (.createAccount a oath rule tokens code) = Except.ok (s', o, l))
    (T : Tracks s u) : Tracks s' (u.readAll l) := by
  have hb := bodyL_body h
  simp only [bodyL, createAccountL, bind_ok, pure_ok, Prod.mk.injEq, require_ok, Bool.not_eq_true'] at h
  obtain ⟨⟨⟩, -, ⟨⟩, hno, ⟨s0, rid, extra⟩, hcc, v, hv, ⟨s1, w⟩, hd, s2, hc, rfl, -, rfl⟩ := h
  have hno : s.accounts.get a = none := by
    cases hg : s.accounts.get a with
    | none => rfl
    | some x => rw [AMap.has_iff.mpr ⟨x, hg⟩] at hno; cases hno
  have ha : ({ s0 with accounts := s0.accounts.set a (Account.fresh rule rid),
                       perms := registerAccount s0.perms a rule } : State).accounts.get a =
      some (Account.fresh rule rid) := AMap.get_set_self ..
  have hs0 : s0.pool = s.pool ∧ s0.config = s.config ∧ s0.lpSupply = s.lpSupply := by
    rcases claimCode_ok hcc with ⟨-, -, -, rfl⟩ | ⟨c, g, r, -, -, -, rfl⟩
    · exact ⟨rfl, rfl, rfl⟩
    · exact ⟨rfl, rfl, rfl⟩
  obtain ⟨acc', refs, hr, -, rfl⟩ := commit_ok.mp hc
  obtain ⟨b1, b2, b3, b4, b5, -, b7, b8⟩ := deposit_parts hv ha hd hr
  have hoth : ∀ b, b ≠ a → _ := fun b hb' => body_accounts hb b (by simpa [Op.account] using fun e => hb' e.symm)
  rw [readAll_cons, readAll_append, readAll_append, readAll_pairs, readAll_requests, readAll_cons, readAll_nil]
  simp only [b1.addr, View.read] at hoth ⊢
  show Tracks _ (View.onAccount (View.onAccount { u.onAccount a _ with pool := _ } a _) a _)
  rw [onAccount_twice, onAccount_pool, onAccount_twice]
  have hs := T.accounts a
  rw [hno] at hs
  refine T.account hoth ?_ ?_ (b7.trans hs0.2.1) (b8.trans hs0.2.2)
  · simp only [AMap.get_set_self]
    rw [show u.accounts a = AccountView.empty from hs]
    refine ⟨by rw [realize_ref hr, b1.ref]; rfl, tracks_requests hr b1.requests b1.len (by intro i; simp [AccountView.empty, Account.fresh]),
      by rw [b3]; rfl, ?_, ?_⟩
    · intro p; unfold Account.size; rw [b4]; simp [AccountView.empty, Account.fresh]
    · intro r hr'; rw [b5 r hr']; simp [AccountView.empty, Account.fresh]
  · exact tracks_pool (by intro p; rw [b2]; exact (T.pool p).trans (by rw [show _ = s.pool from hs0.1]))

/-! ## Keeper calls -/

theorem keeper_mk {env : Env} {s s1 s2 s' : State} {a : Addr} {ids : List PairId}
    {u : Option PriceUpdate} {c : Ctx} {v v0 : VAccount} {pool : VPool} {w : W} {rw : Dec}
    (hv : s.load a = Except.ok v) (hq : ReqOnly v v0)
    (hk : keeperLoad env s ids u = Except.ok (s1, c, pool))
    (hp : WPath c.cfg.ex { pool, acc := v0, dist := s1.dist } w 0)
    (hc : s1.commit w = Except.ok s2) (he : s' = { s2 with rewardSupply := rw }) :
    ∃ acc acc', KeeperRun env s s' a acc acc' ids u s1 c { pool, acc := v0, dist := s1.dist } w ∧ Buffered a acc w.acc := by
  obtain ⟨-, -, -, -, -, rfl, hs1⟩ := keeperLoad_ok hk
  have hd : s1.dist = s.dist := by rw [hs1]
  rw [hd] at hp ⊢
  obtain ⟨acc, rd, ha, -, -⟩ := load_ok hv
  obtain ⟨acc', refs, hr, h2⟩ := commit_spec hc
  refine ⟨acc, acc', keeperRun_mk hv ha hq hk hp (refs := refs) (rw := rw) ?_ ?_, ((buffered_load hv ha).req hq).path hp⟩
  · refine ⟨hr.1, ?_⟩
    have := hr.2
    rw [hs1] at this
    exact this
  · rw [he, h2]

/-- The picture after a keeper call. -/
theorem tracks_run {env : Env} {s s' s1 : State} {a : Addr} {acc acc' : Account} {ids : List PairId}
    {pu : Option PriceUpdate} {c : Ctx} {w0 w : W} {u : View} {g : AccountView → AccountView} {l : List Event}
    (hrun : KeeperRun env s s' a acc acc' ids pu s1 c w0 w) (hB : Buffered a acc w.acc) (T : Tracks s u)
    (hl : u.readAll l = { u.onAccount a (fun x => { g x with requests := overwrite w.acc.requestList (g x).requests }) with
      pool := overwrite w.pool.updateList u.pool })
    (g1 : ∀ x, (g x).link = x.link) (g2 : ∀ x, (g x).requests = x.requests)
    (g3 : (g (u.accounts a)).validStart = acc'.validStart)
    (g4 : (∀ p, (u.accounts a).size p = acc.size p) → ∀ p, (g (u.accounts a)).size p = acc'.size p)
    (g5 : (∀ r, r ≠ BASE → (u.accounts a).collateral r = (acc.collateralBalances.get r).getD 0) →
      ∀ r, r ≠ BASE → (g (u.accounts a)).collateral r = (acc'.collateralBalances.get r).getD 0) :
    Tracks s' (u.readAll l) := by
  rw [hl]
  have hs := T.accounts a
  rw [hrun.before] at hs
  obtain ⟨s1, s2, s3, s4, s5⟩ := hs
  refine T.account hrun.others ?_ ?_ hrun.config hrun.lp
  · rw [hrun.after]
    exact ⟨by rw [realize_ref hrun.real, hB.ref, ← s1]; exact g1 _,
      tracks_requests hrun.real hB.requests hB.len (by intro i; rw [g2]; exact s2 i), g3, g4 s4, g5 s5⟩
  · rw [hrun.pool]
    refine tracks_pool ?_
    intro p
    rw [hrun.path.frame.2.2.2.2, hrun.pool0]
    exact T.pool p

theorem read_pool_first {u : View} {a : Addr} {g : AccountView → AccountView} {w : W} {pre : List Event}
    (ha : w.acc.addr = a) (h : u.readAll pre = u.onAccount a g) :
    u.readAll (pre ++ w.pool.pairEvents ++ w.acc.requestEvents) =
      { u.onAccount a (fun x => { g x with requests := overwrite w.acc.requestList (g x).requests }) with
        pool := overwrite w.pool.updateList u.pool } := by
  rw [readAll_append, readAll_append, h, readAll_pairs, readAll_requests, ha, onAccount_pool, onAccount_twice]
  rfl

theorem read_account_first {u : View} {a : Addr} {g : AccountView → AccountView} {w : W} {pre : List Event}
    (ha : w.acc.addr = a) (h : u.readAll pre = u.onAccount a g) :
    u.readAll (pre ++ (w.acc.requestEvents ++ w.pool.pairEvents)) =
      { u.onAccount a (fun x => { g x with requests := overwrite w.acc.requestList (g x).requests }) with
        pool := overwrite w.pool.updateList u.pool } := by
  rw [readAll_append, readAll_append, h, readAll_pairs, readAll_requests, ha, onAccount_twice]
  rfl

theorem run_balances {env : Env} {s s' s1 : State} {a : Addr} {acc acc' : Account} {ids : List PairId}
    {u : Option PriceUpdate} {c : Ctx} {w0 w : W} (hrun : KeeperRun env s s' a acc acc' ids u s1 c w0 w)
    {cs : List (Res × Dec)} {bs : List Bucket} (h : CollTake env w0.acc.collPart w.acc.collPart cs bs) (r : Res) :
    (acc'.collateralBalances.get r).getD 0 = (acc.collateralBalances.get r).getD 0 - listed (amountsOf bs) r := by
  rw [(realize_coll hrun.real).2]
  have := balanceSub_listed r h.comp
  rw [hrun.collPart0] at this
  exact this

theorem run_start {env : Env} {cl : Caller} {s s' s1 : State} {a : Addr} {acc acc' : Account} {ids : List PairId}
    {u : Option PriceUpdate} {c : Ctx} {w0 w : W} {op : Op} {o : Out} (h0 : Reach env s)
    (hrun : KeeperRun env s s' a acc acc' ids u s1 c w0 w)
    (hb : body env cl s op = Except.ok (s', o)) (hn : ∀ p u, op ≠ .liquidate a p u) : acc'.validStart = acc.validStart := by
  obtain ⟨acc2, hg2, hq⟩ := body_requests hb (reach_requestsOk h0) hrun.before
  rw [hrun.after] at hg2; cases hg2
  exact hq.start hn

theorem tracks_adl {env : Env} {cl : Caller} {s s' : State} {a : Addr} {p : PairId} {pu : Option PriceUpdate}
    {o : Out} {l : List Event} {u : View} (h0 : Reach env s)
    (hs : stepL env cl s (.autoDeleverage a p pu) = Except.ok (s', o, l))
    (T : Tracks s u) : Tracks s' (u.readAll l) := by
  have h := stepL_body hs
  have hb := bodyL_body h
  simp only [bodyL, opAutoDeleverageL, bind_ok, pure_ok, Prod.mk.injEq] at h
  obtain ⟨v, hv, ⟨s1, c, pool⟩, hk, ⟨w, e⟩, hx, s2, hc, s3, hm, rfl, rfl, rfl⟩ := h
  obtain ⟨-, he⟩ := mintReward_ok hm
  obtain ⟨acc, acc', hrun, hB⟩ := keeper_mk hv (reqOnly_refl v) hk (autoDeleverage_path hx) hc he
  obtain ⟨e', accrued, he', -, -, -, -, -, hcl, acc2, hg2, hn, hq⟩ := c28_adl h0 (stepL_step hs) hrun.before
  rw [hrun.after] at hg2; cases hg2
  cases he'
  have hp : e.pair = p := by
    obtain ⟨_, _, _, _, _, _, _, _, _, _, _, _, _, -, -, -, -, -, -, -, -, -, -, -, -, -, -, rfl⟩ := autoDeleverage_ok hx
    rfl
  refine tracks_run (g := fun x => { x with size := fun q => if q = e.pair then x.size q + e.amountClose else x.size q })
    hrun hB T (read_account_first (pre := [_]) hB.addr (by rw [hB.addr]; rfl)) (fun _ => rfl) (fun _ => rfl) ?_ ?_ ?_
  · have hs := T.accounts a
    rw [hrun.before] at hs
    exact hs.2.2.1.trans (run_start h0 hrun hb (by intro p u; simp)).symm
  · intro hz q
    simp only [hp]
    split
    · rename_i e; subst e
      rw [hz, hcl]; unfold Account.size; rw [hn]; simp
    · rename_i hne; rw [hz]; exact ((hq q hne).1).symm
  · intro hz r hr
    rw [run_collateral hrun (autoDeleverage_touches hx).collPart]
    exact hz r hr

theorem tracks_swapDebt {env : Env} {cl : Caller} {s s' : State} {a : Addr} {r : Res} {b : Bucket}
    {pu : Option PriceUpdate} {o : Out} {l : List Event} {u : View} (h0 : Reach env s)
    (h : bodyL env cl s (.swapDebt a r b pu) = Except.ok (s', o, l))
    (T : Tracks s u) : Tracks s' (u.readAll l) := by
  have hb := bodyL_body h
  simp only [bodyL, opSwapDebtL, bind_ok, pure_ok, Prod.mk.injEq] at h
  obtain ⟨⟨⟩, -, v, hv, ⟨s1, c, pool⟩, hk, ⟨w, token, rest, e⟩, hx, s2, hc, rfl, rfl, rfl⟩ := h
  obtain ⟨acc, acc', hrun, hB⟩ := keeper_mk (rw := s2.rewardSupply) hv (reqOnly_refl v) hk
    (swapDebt_path (ex := c.cfg.ex) hx) hc rfl
  have henv : c.env = env := (keeperLoad_ok hk).1
  obtain ⟨cc, pr, priceRes, amount, value, taken, pool', w1, ac, bs, -, -, -, -, -, -, -, hp, hs, hwd, hbs, hw, -, he⟩ :=
    swapDebt_ok hx
  have htake := withdrawCollateral_take hwd
  rw [settleAccount_collPart hs, henv] at htake
  simp only at htake
  have hbal := run_balances hrun (by rw [show w = _ from hw]; exact htake)
  have hb1 : bs = [⟨r, token.amt⟩] := by
    have := htake.vault
    simp only [vaultTakeBatch, bind_ok, pure_ok, Prod.mk.injEq] at this
    obtain ⟨⟨m1, b1⟩, hv1, ⟨m2, b2⟩, h2, -, hbs'⟩ := this
    cases h2
    obtain ⟨hres, -⟩ := vaultTake_get hv1
    rw [← hbs'] at hbs ⊢
    cases hbs
    show [b1] = [⟨r, b1.amt⟩]
    have hres : b1.res = r := hres
    rw [← hres]
  refine tracks_run (g := fun x => { x with collateral := fun q => if q = e.resource then x.collateral q - e.amount else x.collateral q })
    hrun hB T (read_account_first (pre := [_]) hB.addr (by rw [hB.addr]; rfl)) (fun _ => rfl) (fun _ => rfl) ?_ ?_ ?_
  · have hs := T.accounts a
    rw [hrun.before] at hs
    exact hs.2.2.1.trans (run_start h0 hrun hb (by intro p u; simp)).symm
  · intro hz q
    refine (hz q).trans ?_
    unfold Account.size
    rw [body_positions (reach_noEmpty h0) hb hrun.before hrun.after (by simp [Op.moves]) q]
  · intro hz q hq
    rw [hbal q, hb1, ← hz q hq, he]
    simp only [amountsOf, List.map_cons, List.map_nil, listed_cons, listed_nil]
    by_cases e1 : q = r
    · subst e1; simp
    · simp [e1, Ne.symm e1]

theorem tracks_liquidate {env : Env} {cl : Caller} {s s' : State} {a : Addr} {b : Bucket} {pu : Option PriceUpdate}
    {o : Out} {l : List Event} {u : View} (h0 : Reach env s)
    (hs : stepL env cl s (.liquidate a b pu) = Except.ok (s', o, l))
    (T : Tracks s u) : Tracks s' (u.readAll l) := by
  have h := stepL_body hs
  have hb := bodyL_body h
  simp only [bodyL, opLiquidateL, bind_ok, pure_ok, Prod.mk.injEq] at h
  obtain ⟨⟨⟩, -, v, hv, ⟨s1, c, pool⟩, hk, ⟨w, tokens, e⟩, hx, s2, hc, s3, hm, rfl, rfl, rfl⟩ := h
  obtain ⟨-, he⟩ := mintReward_ok hm
  obtain ⟨acc, acc', hrun, hB⟩ := keeper_mk hv (reqOnly_refl v) hk (liquidate_path hx) hc he
  obtain ⟨acc2, taken, hg2, hn, hcoll, -⟩ := c19_complete h0 (stepL_step hs) hrun.before
  rw [hrun.after] at hg2; cases hg2
  obtain ⟨acc3, hg3, hq⟩ := body_requests hb (reach_requestsOk h0) hrun.before
  rw [hrun.after] at hg3; cases hg3
  have hvp : v.positions = acc.positions := by
    obtain ⟨acc4, h4, h5⟩ := load_stored hv
    rw [hrun.before] at h4; cases h4; exact h5
  have hst : acc'.validStart = acc.requests.length := by
    cases hq with
    | same _ _ h => exact absurd rfl (h b pu)
    | pushed _ _ _ _ h => exact absurd rfl (h b pu)
    | cancelled _ _ h => cases h
    | liquidated _ _ _ _ h => exact h
    | expired _ _ _ h => cases h
    | executed _ _ _ h => cases h
  obtain ⟨w1, lp, lc, value, ac, tokens, taken, pool', w2, w3, loss, w4, fees, -, hlp, hlc, -, -, -, -, -, -, -,
    -, -, hw, -, hev⟩ := liquidate_ok hx
  have hvs : w.acc.validStart = acc.requests.length := by
    have : w.acc.validStart = w.acc.requestsLen := by rw [show w = _ from hw]; rfl
    rw [this, hB.len]
  obtain ⟨p1, p2, p3, hu, hlo, hsn, rfl⟩ := liquidatePositions_ok hlp
  obtain ⟨-, -, c4, -⟩ := liquidateCollateral_ok hrun.feeds p1 hlc
  have hbal : v.noPositions.collateralBalances = acc.collateralBalances := hrun.coll0
  simp only at c4
  rw [hbal] at c4
  have hacc : ∀ r, (c.cfg.colls.get r).isSome = s.accepts r := by
    intro r; rw [hrun.coll]; unfold State.accepts; simp
  have hcnt : c.counted = fun e => s.accepts e.1 := by
    funext e; exact hacc e.1
  rw [hcnt] at c4
  have hea : e.collateralAmounts = acc.collateralBalances.entries.filter (fun e => s.accepts e.1) := by rw [hev]; exact c4
  refine tracks_run (g := fun x => { x with
      validStart := w.acc.validStart
      size := fun p => x.size p - listed (v.positions.entries.map (fun x => (x.1, x.2.amount))) p
      collateral := fun r => x.collateral r - listed e.collateralAmounts r })
    hrun hB T (read_account_first (pre := [_, _]) hB.addr (by
      rw [hB.addr, readAll_cons, readAll_cons, readAll_nil]
      exact onAccount_twice u a (fun x => { x with validStart := w.acc.validStart }) (fun x => { x with
        size := fun p => x.size p - listed (v.positions.entries.map (fun x => (x.1, x.2.amount))) p
        collateral := fun r => x.collateral r - listed e.collateralAmounts r }))) (fun _ => rfl) (fun _ => rfl) ?_ ?_ ?_
  · exact hvs.trans hst.symm
  · intro hz q
    simp only [hz q, hvp]
    rw [listed_nodup q _ (by rw [List.map_map]; exact acc.positions.nodup)]
    have : AMap.lget q (acc.positions.entries.map (fun x => (x.1, x.2.amount))) = (acc.positions.get q).map (·.amount) :=
      lget_mapSnd ..
    rw [this]
    unfold Account.size
    rw [hn q]
    cases acc.positions.get q <;> simp
  · intro hz r hr
    simp only [hz r hr, hea]
    rw [listed_nodup r _ (acc.collateralBalances.nodup.sublist (List.filter_sublist.map _)), lget_filter, hcoll r]
    split
    · show _ - ((acc.collateralBalances.get r).getD 0) = _
      simp
    · simp

theorem tracks_process {env : Env} {cl : Caller} {s s' : State} {a : Addr} {i : Nat} {pu : Option PriceUpdate}
    {o : Out} {l : List Event} {u : View} (h0 : Reach env s)
    (h : bodyL env cl s (.processRequest a i pu) = Except.ok (s', o, l))
    (T : Tracks s u) : Tracks s' (u.readAll l) := by
  have hb := bodyL_body h
  simp only [bodyL, processRequestL, bind_ok, pure_ok, Prod.mk.injEq] at h
  obtain ⟨v, hv, ⟨v1, r, expired⟩, hpr, cfg, -, ⟨s1, out, l⟩, hpb, s3, hm, rfl, rfl, rfl⟩ := h
  obtain ⟨-, he⟩ := mintReward_ok hm
  obtain ⟨acc, rd, ha, -, -⟩ := load_ok hv
  have hB0 := (buffered_load hv ha).req (processRequest_reqOnly hpr)
  obtain ⟨acc2, hg2, hq⟩ := body_requests hb (reach_requestsOk h0) ha
  have hst := hq.start (by intro p u; simp)
  have hsh := T.accounts a
  rw [ha] at hsh
  unfold processBodyL at hpb
  cases expired
  · simp only [Bool.false_eq_true, if_false, bind_ok, pure_ok, Prod.mk.injEq] at hpb
    obtain ⟨⟨s4, c, pool⟩, hk, ⟨w, out', l'⟩, hx, s5, hc, rfl, rfl, rfl⟩ := hpb
    have hx' : executeRequest c { pool, acc := v1, dist := s4.dist } r = Except.ok (w, out') := by
      rw [← executeRequestL_erase, hx]; rfl
    obtain ⟨acc0, acc', hrun, hB⟩ := keeper_mk hv (processRequest_reqOnly hpr) hk (executeRequest_path hx') hc he
    have e1 := hrun.before
    rw [ha] at e1; cases e1
    rw [hrun.after] at hg2; cases hg2
    cases r with
    | removeCollateral q =>
      simp only [executeRequestL, bind_ok, pure_ok, Prod.mk.injEq] at hx
      obtain ⟨⟨w', tokens⟩, hrm, rfl, rfl, rfl⟩ := hx
      obtain ⟨claims, t, ac, bs, -, ht, hwd, -, -, hw, htk⟩ := removeCollateral_ok hrm
      have henv : c.env = env := (keeperLoad_ok hk).1
      have htake := withdrawCollateral_take hwd
      rw [claims_collPart ht, henv] at htake
      simp only at htake
      have hbal := run_balances hrun (by rw [show w' = _ from hw]; exact htake)
      refine tracks_run (g := fun x => { x with collateral := fun r => x.collateral r - listed (amountsOf tokens) r })
        hrun hB T (read_pool_first (pre := [_]) hB.addr (by rw [hB.addr]; rfl)) (fun _ => rfl) (fun _ => rfl) ?_ ?_ ?_
      · exact hsh.2.2.1.trans hst.symm
      · intro hz q
        refine (hz q).trans ?_
        unfold Account.size
        rw [body_positions (reach_noEmpty h0) hb ha hrun.after (by simp [Op.moves]) q]
      · intro hz q hq
        rw [hbal q, htk]
        simp only [hz q hq, amountsOf, List.map_append, listed_append]
        have := listed_onlyBase (claims_base ht (by simp)) hq
        simp only [amountsOf] at this
        rw [this]; ring
    | marginOrder q =>
      simp only [executeRequestL, bind_ok, pure_ok, Prod.mk.injEq] at hx
      obtain ⟨⟨w', e⟩, hmo, rfl, rfl, rfl⟩ := hx
      have hop := order_parts hmo
      refine tracks_run (g := fun x => { x with
          size := fun p => if p = e.pair then x.size p + e.amountClose + e.amountOpen else x.size p })
        hrun hB T (read_pool_first (pre := [_]) hB.addr (by rw [hB.addr]; rfl)) (fun _ => rfl) (fun _ => rfl) ?_ ?_ ?_
      · exact hsh.2.2.1.trans hst.symm
      · intro hz p
        simp only [hz p, hop.pair]
        rw [hrun.size (reach_noEmpty h0) p, ← hrun.size0 p]
        split
        · rename_i e; subst e; exact hop.amount.symm
        · rename_i hne; rw [position_congr (hop.pos p hne)]
      · intro hz q hq
        rw [run_collateral hrun hop.coll]; exact hz q hq
  · simp only [if_true, bind_ok, pure_ok, Prod.mk.injEq] at hpb
    obtain ⟨s5, hc, rfl, rfl, rfl⟩ := hpb
    obtain ⟨acc', refs, hr, -, rfl⟩ := commitAcc_ok.mp hc
    have hg : acc2 = acc' := by
      rw [he] at hg2
      simp only [hB0.addr, AMap.get_set_self] at hg2
      exact (Option.some.inj hg2).symm
    subst hg
    rw [readAll_requests, hB0.addr]
    refine T.account (q := u.pool) (f := fun x => { x with requests := overwrite v1.requestList x.requests })
      (fun b hb' => body_accounts hb b (by simpa [Op.account] using fun e => hb' e.symm)) ?_
      (by rw [he]; exact T.pool) (by rw [he]) (by rw [he])
    rw [hg2]
    refine ⟨by rw [realize_ref hr, hB0.ref]; exact hsh.1, tracks_requests hr hB0.requests hB0.len hsh.2.1,
      by rw [hst]; exact hsh.2.2.1, ?_, ?_⟩
    · intro p; refine (hsh.2.2.2.1 p).trans ?_; unfold Account.size
      rw [body_positions (reach_noEmpty h0) hb ha hg2 (by simp [Op.moves]) p]
    · intro r hr'
      rw [(realize_coll hr).2]
      have hcp := (processRequest_reqOnly hpr).collPart
      obtain ⟨acc0, rd0, hg0, -, rfl⟩ := load_ok hv
      rw [ha] at hg0; cases hg0
      simp only [VAccount.collPart, Prod.mk.injEq] at hcp
      rw [hcp.2.1]
      exact hsh.2.2.2.2 r hr'

/-! ## Calls without an account -/

theorem Tracks.quiet {s s' : State} {u : View} (T : Tracks s u) (h1 : s'.accounts = s.accounts)
    (h2 : s'.pool.positions = s.pool.positions) (h3 : s'.config = s.config) (h4 : s'.lpSupply = s.lpSupply) :
    Tracks s' u := by
  refine ⟨by rw [h1]; exact T.accounts, by rw [h2]; exact T.pool, ?_, ?_, ?_, by rw [h4]; exact T.lpSupply⟩
  · rw [h3]; exact T.exchange
  · rw [h3]; exact T.pairs
  · rw [h3]; exact T.collaterals

/-- The calls that announce nothing. -/
def Op.silent : Op → Bool
  | .depositAuthority _ | .withdrawAuthority | .collectTreasury | .collectFeeDelegator | .mintReferral ..
  | .mintReferralWithAllocation .. | .updateReferral .. | .addReferralAllocation .. | .swapProtocolFee _
  | .createReferralCodes .. | .createReferralCodesFromAllocation .. | .collectReferralRewards _ | .setRole ..
  | .oraclePush _ | .oracleAddKey .. | .oracleRemoveKey _ | .oracleRemovePrice _ | .delegatorMaxLock _
  | .delegatorMultiplier _ | .delegatorContingent _ | .delegatorDeposit _ | .delegatorWithdraw _ | .lockFee _
  | .tick _ => true
  | _ => false

theorem silent_frame {env : Env} {cl : Caller} {s s' : State} {op : Op} {o : Out} (hs : op.silent = true)
    (h : body env cl s op = Except.ok (s', o)) :
    s'.accounts = s.accounts ∧ s'.pool.positions = s.pool.positions ∧ s'.config = s.config ∧
      s'.lpSupply = s.lpSupply := by
  have hacc : op.account = none := by cases op <;> first | rfl | cases hs
  have hm : op.marks = false := by cases op <;> first | rfl | cases hs
  have hcfg : s'.config = s.config := by
    rcases (body_admin h).config with h | ⟨_, rfl, -⟩ | ⟨_, rfl, -⟩ | ⟨_, rfl, -⟩ | ⟨_, rfl, -⟩
    · exact h
    all_goals cases hs
  refine ⟨(body_no_account h hacc).1, body_pool_positions h hm, hcfg, ?_⟩
  by_cases ho : op.offPool = true
  · exact (body_off h ho).2.1
  · cases op <;> first | (cases hs; done) | (exact absurd rfl ho) | skip
    case collectTreasury => obtain ⟨pool, x, hp, rfl, -⟩ := collectTreasury_ok h; rfl
    case collectFeeDelegator => obtain ⟨pool, x, hp, rfl, -⟩ := collectFeeDelegator_ok h; rfl
    case swapProtocolFee b => obtain ⟨_, _, _, _, -, -, -, -, -, rfl, -⟩ := swapProtocolFee_ok h; rfl
    case collectReferralRewards id => obtain ⟨_, pool, x, -, -, -, rfl, -⟩ := collectReferralRewards_ok h; rfl

theorem silent_log {env : Env} {cl : Caller} {s s' : State} {op : Op} {o : Out} {l : List Event} (hs : op.silent = true)
    (h : bodyL env cl s op = Except.ok (s', o, l)) : l = [] := by
  have key : ∀ x : R (State × Out), Perp.silent x = Except.ok (s', o, l) → l = [] := by
    intro x h
    simp only [Perp.silent, bind_ok, pure_ok, Prod.mk.injEq] at h
    obtain ⟨-, -, -, -, rfl⟩ := h
    rfl
  cases op <;> first | (cases hs; done) | exact key _ h

theorem announcing_log {x : R (State × Out)} {e : Event} {s' : State} {o : Out} {l : List Event}
    (h : announcing x e = Except.ok (s', o, l)) : l = [e] := by
  simp only [announcing, bind_ok, pure_ok, Prod.mk.injEq] at h
  obtain ⟨-, -, -, -, rfl⟩ := h
  rfl

theorem stored_cons {K C D : Type} [DecidableEq K] {comp : C → R D} {f : K → Option C} {m : AMap K D} {k : K} {c : C} {d : D}
    (h : Stored comp f m.get) (hc : comp c = Except.ok d) :
    Stored comp (fun q => if q = k then some c else f q) (m.set k d).get := by
  intro q
  by_cases hq : q = k
  · subst hq; simp only [if_true]; exact ⟨d, hc, AMap.get_set_self ..⟩
  · simp only [if_neg hq]; rw [AMap.get_set_ne _ _ (Ne.symm hq)]; exact h q

theorem stored_pairs {xs : List PairConfig} : ∀ {c c' : Config} {f : PairId → Option PairConfig},
    c.updatePairs xs = Except.ok c' → Stored PairConfig.compress f c.pairs.get →
    Stored PairConfig.compress (overwrite (xs.map (fun c => (c.pairId, c))) f) c'.pairs.get ∧
      c'.exchange = c.exchange ∧ c'.collaterals = c.collaterals := by
  unfold Config.updatePairs
  induction xs with
  | nil => intro c c' f h hs; simp only [List.foldlM_nil, pure_ok] at h; subst h; exact ⟨hs, rfl, rfl⟩
  | cons x xs ih =>
    intro c c' f h hs
    simp only [List.foldlM_cons, bind_ok, Config.updatePair, pure_ok] at h
    obtain ⟨_, ⟨-, -, d, hd, rfl⟩, h⟩ := h
    simp only [List.map_cons, overwrite_cons]
    obtain ⟨h1, h2, h3⟩ := ih h (stored_cons hs hd)
    exact ⟨h1, h2, h3⟩

theorem stored_collaterals {xs : List (Res × CollateralConfig)} : ∀ {c c' : Config} {f : Res → Option CollateralConfig},
    c.updateCollaterals xs = Except.ok c' → Stored CollateralConfig.compress f c.collaterals.get →
    Stored CollateralConfig.compress (overwrite xs f) c'.collaterals.get ∧
      c'.exchange = c.exchange ∧ c'.pairs = c.pairs := by
  unfold Config.updateCollaterals
  induction xs with
  | nil => intro c c' f h hs; simp only [List.foldlM_nil, pure_ok] at h; subst h; exact ⟨hs, rfl, rfl⟩
  | cons x xs ih =>
    intro c c' f h hs
    simp only [List.foldlM_cons, bind_ok, Config.updateCollateral, pure_ok] at h
    obtain ⟨_, ⟨-, -, d, hd, rfl⟩, h⟩ := h
    simp only [overwrite_cons]
    obtain ⟨h1, h2, h3⟩ := ih h (stored_cons hs hd)
    exact ⟨h1, h2, h3⟩

theorem tracks_updatePairs {env : Env} {cl : Caller} {s s' : State} {ids : List PairId} {pu : Option PriceUpdate}
    {o : Out} {l : List Event} {u : View} (h : bodyL env cl s (.updatePairs ids pu) = Except.ok (s', o, l))
    (T : Tracks s u) : Tracks s' (u.readAll l) := by
  simp only [bodyL, opUpdatePairsL, bind_ok, pure_ok, Prod.mk.injEq] at h
  obtain ⟨⟨s1, c, pool⟩, hk, ⟨pool', flags⟩, hx, s3, hm, rfl, -, rfl⟩ := h
  obtain ⟨-, rfl⟩ := mintReward_ok hm
  obtain ⟨-, -, -, -, -, rfl, hs1⟩ := keeperLoad_ok hk
  have hf := (updatePairsLoop_path (ex := ExchangeConfig.dflt) (acc := default) (d := s.dist) _ hx).frame.2.2.2.2
  rw [readAll_pairs]
  have hc : s1.config = s.config := by rw [hs1]
  refine ⟨by rw [hs1]; exact T.accounts, ?_, ?_, ?_, ?_, by rw [hs1]; exact T.lpSupply⟩
  · refine tracks_pool (v := pool') (f := u.pool) ?_
    intro p
    simp only at hf
    rw [hf]; exact T.pool p
  · show _ = Except.ok s1.config.exchange; rw [hc]; exact T.exchange
  · show Stored _ _ s1.config.pairs.get; rw [hc]; exact T.pairs
  · show Stored _ _ s1.config.collaterals.get; rw [hc]; exact T.collaterals

theorem tracks_config {s : State} {c' : Config} {u u' : View} (T : Tracks s u) (ha : u'.accounts = u.accounts)
    (hp : u'.pool = u.pool) (hl : u'.lpSupply = u.lpSupply) (h1 : u'.exchange.compress = Except.ok c'.exchange)
    (h2 : Stored PairConfig.compress u'.pairs c'.pairs.get)
    (h3 : Stored CollateralConfig.compress u'.collaterals c'.collaterals.get) :
    Tracks { s with config := c' } u' :=
  ⟨by rw [ha]; exact T.accounts, by rw [hp]; exact T.pool, h1, h2, h3, by rw [hl]; exact T.lpSupply⟩

theorem tracks_liquidity {s s' : State} {u : View} {e : LiquidityEv} {v : VPool} (T : Tracks s u)
    (ha : s'.accounts = s.accounts) (hp : s'.pool = v.realize) (hv : v.comp.positions = s.pool.positions)
    (hc : s'.config = s.config) (hl : s'.lpSupply = s.lpSupply + e.lpAmount) :
    Tracks s' (u.readAll (.liquidity e :: v.pairEvents)) := by
  rw [readAll_cons, readAll_pairs]
  refine ⟨by rw [ha]; exact T.accounts, ?_, ?_, ?_, ?_, ?_⟩
  · rw [hp]; exact tracks_pool (by intro p; rw [hv]; exact T.pool p)
  · rw [hc]; exact T.exchange
  · rw [hc]; exact T.pairs
  · rw [hc]; exact T.collaterals
  · rw [hl, ← T.lpSupply]; rfl

theorem tracks_step {env : Env} {cl : Caller} {s s' : State} {op : Op} {o : Out} {l : List Event} {u : View}
    (h0 : Reach env s) (hs : stepL env cl s op = Except.ok (s', o, l)) (T : Tracks s u) : Tracks s' (u.readAll l) := by
  have h := stepL_body hs
  have hb := bodyL_body h
  by_cases hsil : op.silent = true
  · rw [silent_log hsil h]
    obtain ⟨h1, h2, h3, h4⟩ := silent_frame hsil hb
    exact T.quiet h1 h2 h3 h4
  cases op <;> first | (exact absurd rfl hsil) | skip
  case signalUpgrade n =>
    rw [announcing_log h]
    simp only [body, pure_ok, Prod.mk.injEq] at hb
    obtain ⟨rfl, -⟩ := hb
    exact T
  case updateExchangeConfig c =>
    rw [announcing_log h]
    simp only [body, bind_ok, pure_ok, Prod.mk.injEq, Config.updateExchange] at hb
    obtain ⟨_, ⟨-, -, d, hd, rfl⟩, rfl, -⟩ := hb
    exact tracks_config T rfl rfl rfl hd T.pairs T.collaterals
  case updatePairConfigs cs =>
    rw [announcing_log h]
    simp only [body, bind_ok, pure_ok, Prod.mk.injEq] at hb
    obtain ⟨c', hc, rfl, -⟩ := hb
    obtain ⟨h1, h2, h3⟩ := stored_pairs hc T.pairs
    exact tracks_config T rfl rfl rfl (by rw [h2]; exact T.exchange) h1 (by rw [h3]; exact T.collaterals)
  case updateCollateralConfigs cs =>
    rw [announcing_log h]
    simp only [body, bind_ok, pure_ok, Prod.mk.injEq] at hb
    obtain ⟨c', hc, rfl, -⟩ := hb
    obtain ⟨h1, h2, h3⟩ := stored_collaterals hc T.collaterals
    exact tracks_config T rfl rfl rfl (by rw [h2]; exact T.exchange) (by rw [h3]; exact T.pairs) h1
  case removeCollateralConfig r =>
    rw [announcing_log h]
    simp only [body, pure_ok, Prod.mk.injEq] at hb
    obtain ⟨rfl, -⟩ := hb
    refine tracks_config T rfl rfl rfl T.exchange T.pairs ?_
    intro q
    have := T.collaterals q
    by_cases hq : q = r
    · subst hq
      simp [View.readAll, View.read, Config.removeCollateral, AMap.get_erase]
    · simp only [View.readAll, View.read, Config.removeCollateral, List.foldl_cons, List.foldl_nil, if_neg hq]
      rw [AMap.get_erase, if_neg (Ne.symm hq)]
      exact this
  case addLiquidity b =>
    obtain ⟨cfg, fee, lp, price, -, -, -, -, -, -, hs', -, -, ev, hev, -, hlp, -⟩ := opAddLiquidity_ok hb
    simp only [bodyL, opAddLiquidityL, bind_ok, pure_ok, Prod.mk.injEq] at h
    obtain ⟨cfg', hcfg, ⟨⟩, -, ⟨pool, dist, minted, e⟩, hx, sup, -, rfl, rfl, rfl⟩ := h
    cases hev
    refine tracks_liquidity T rfl rfl ?_ rfl ?_
    · simp only [addLiquidity, bind_ok, pure_ok, Prod.mk.injEq] at hx
      obtain ⟨⟨⟩, -, _, -, _, -, _, -, _, -, p1, hd, _, -, ⟨p2, d2, f2⟩, hf, rfl, -⟩ := hx
      obtain ⟨rfl, -⟩ := settleFeesBasic_ok hf
      rw [VPool.deposit_ok hd]; rfl
    · have := congrArg State.lpSupply hs'
      simp only at this
      rw [this, hlp]
  case removeLiquidity b =>
    obtain ⟨cfg, price, value, fee, x, -, -, -, -, -, -, -, -, -, hs', -, -, -, -, ev, hev, -, hlp, -⟩ := opRemoveLiquidity_ok hb
    simp only [bodyL, opRemoveLiquidityL, bind_ok, pure_ok, Prod.mk.injEq] at h
    obtain ⟨cfg', hcfg, ⟨⟩, -, ⟨pool, dist, x', e⟩, hx, rfl, rfl, rfl⟩ := h
    cases hev
    refine tracks_liquidity T rfl rfl ?_ rfl ?_
    · simp only [removeLiquidity, bind_ok, pure_ok, Prod.mk.injEq] at hx
      obtain ⟨⟨⟩, -, _, -, _, -, _, -, _, -, _, -, ⟨⟩, -, ⟨p1, x1⟩, hd, ⟨p2, d2, f2⟩, hf, ⟨⟩, -, _, -, _, -, rfl, -⟩ := hx
      obtain ⟨rfl, -⟩ := settleFeesBasic_ok hf
      rw [(VPool.withdraw_ok hd).2]; rfl
    · show s.lpSupply - b.amt = _
      rw [hlp]; ring
  case createAccount a oath r t c => exact tracks_create h T
  case createRecoveryKey oath a => exact tracks_holder h0 h rfl rfl T
  case addAuthRule oath a lv n => exact tracks_holder h0 h rfl rfl T
  case setLevelAuth oath a lv r => exact tracks_holder h0 h rfl rfl T
  case addCollateral oath a t => exact tracks_deposit h T
  case removeCollateralRequest oath e a t c => exact tracks_holder h0 h rfl rfl T
  case marginOrderRequest oath a q act can st => exact tracks_holder h0 h rfl rfl T
  case marginOrderTpSlRequest oath a q tp sl => exact tracks_holder h0 h rfl rfl T
  case cancelRequests oath a is => exact tracks_holder h0 h rfl rfl T
  case processRequest a i pu => exact tracks_process h0 h T
  case swapDebt a r b pu => exact tracks_swapDebt h0 h T
  case liquidate a b pu => exact tracks_liquidate h0 hs T
  case autoDeleverage a p pu => exact tracks_adl h0 hs T
  case updatePairs ids pu => exact tracks_updatePairs h T

/-- **C59.** Whatever calls were made, in whatever order, an indexer that has read all events knows, for every account,
whether it exists and with which referral, its requests with their current status, which of them a liquidation has
invalidated, its position sizes and its collateral balances; for every pair, the pool's record; the configuration in force; and
the supply of pool shares.  It needs nothing but the events, in order. -/
theorem c59_indexer {env : Env} {log : List Event} {s : State} (h : ReachLog env log s) :
    Tracks s (View.initial.readAll log) := by
  induction h with
  | init g =>
    refine ⟨fun a => ?_, fun p => ?_, g.exchangeConfig, fun p => ?_, fun r => ?_, g.lp.symm⟩
    · rw [g.accounts]; rfl
    · rw [g.pool]; rfl
    · show _ = none; rw [g.config.1]; rfl
    · show _ = none; rw [g.config.2]; rfl
  | step hr hs ih =>
    rw [readAll_append]
    exact tracks_step (reach_iff_log.mpr ⟨_, hr⟩) hs ih

/-- **C59, nothing is hidden.** A call that emits no event changes none of what an indexer follows: no request and no status, no
position size, no collateral balance, no pool record, no configuration, no share supply, and it creates no account. -/
theorem c59_nothing_hidden {env : Env} {cl : Caller} {s s' : State} {op : Op} {o : Out} (h0 : Reach env s)
    (h : stepL env cl s op = Except.ok (s', o, [])) :
    (∀ a, match s.accounts.get a, s'.accounts.get a with
      | none, none => True
      | some acc, some acc' => acc'.referralId = acc.referralId ∧ acc'.requests = acc.requests ∧
          acc'.validStart = acc.validStart ∧ (∀ p, acc'.size p = acc.size p) ∧
          ∀ r, r ≠ BASE → (acc'.collateralBalances.get r).getD 0 = (acc.collateralBalances.get r).getD 0
      | _, _ => False) ∧
    (∀ p, s'.pool.positions.get p = s.pool.positions.get p) ∧ s'.config.exchange = s.config.exchange ∧
    (∀ p, s'.config.pairs.get p = s.config.pairs.get p) ∧
    (∀ r, s'.config.collaterals.get r = s.config.collaterals.get r) ∧ s'.lpSupply = s.lpSupply := by
  obtain ⟨log, hl⟩ := reach_iff_log.mp h0
  have T := c59_indexer hl
  have T' := tracks_step h0 h T
  rw [readAll_nil] at T'
  have stored : ∀ {K C D : Type} {comp : C → R D} {f : K → Option C} {m m' : K → Option D},
      Stored comp f m → Stored comp f m' → ∀ k, m' k = m k := by
    intro K C D comp f m m' h h' k
    have h1 := h k
    have h2 := h' k
    cases hf : f k with
    | none => rw [hf] at h1 h2; exact h2.trans h1.symm
    | some c =>
      rw [hf] at h1 h2
      obtain ⟨d, hd, e1⟩ := h1
      obtain ⟨d', hd', e2⟩ := h2
      rw [hd] at hd'; cases hd'
      rw [e1, e2]
  refine ⟨fun a => ?_, fun p => (T'.pool p).symm.trans (T.pool p), ?_, stored T.pairs T'.pairs, stored T.collaterals T'.collaterals,
    T'.lpSupply.symm.trans T.lpSupply⟩
  · have h1 := T.accounts a
    have h2 := T'.accounts a
    cases hg : s.accounts.get a with
    | none =>
      cases hg' : s'.accounts.get a with
      | none => trivial
      | some acc' =>
        rw [hg] at h1; rw [hg'] at h2
        rw [show _ = AccountView.empty from h1] at h2
        cases h2.1
    | some acc =>
      cases hg' : s'.accounts.get a with
      | none =>
        rw [hg] at h1; rw [hg'] at h2
        rw [show _ = AccountView.empty from h2] at h1
        cases h1.1
      | some acc' =>
        rw [hg] at h1; rw [hg'] at h2
        obtain ⟨a1, a2, a3, a4, a5⟩ := h1
        obtain ⟨b1, b2, b3, b4, b5⟩ := h2
        refine ⟨?_, ?_, b3.symm.trans a3, fun p => (b4 p).symm.trans (a4 p), fun r hr => (b5 r hr).symm.trans (a5 r hr)⟩
        · rw [a1] at b1; exact (Option.some.inj b1).symm
        · exact List.ext_getElem? (fun i => (b2 i).symm.trans (a2 i))
  · have h1 := T.exchange
    have h2 := T'.exchange
    rw [h1] at h2
    exact (Except.ok.inj h2).symm

end Perp
