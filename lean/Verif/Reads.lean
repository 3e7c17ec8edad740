import Verif.Known
import Verif.Getters
import Verif.Liquidity
import Verif.Lists
import Verif.Valuation
import Verif.Validated

/-!
# C52: the read methods report the stored state exactly, and always answer
-/

namespace Perp

/-! ## Tools -/

/-- The computation can only fail by an arithmetic overflow. -/
def OnlyArith {α : Type} (x : R α) : Prop := ∀ e, x = Except.error e → e = .arithmetic

theorem onlyArith_pure {α : Type} (a : α) : OnlyArith (pure a : R α) := by
  intro e h; cases h

theorem onlyArith_bind {α β : Type} {x : R α} {f : α → R β} (hx : OnlyArith x)
    (hf : ∀ a, x = Except.ok a → OnlyArith (f a)) : OnlyArith (x >>= f) := by
  intro e h
  cases hxx : x with
  | error e' =>
    rw [hxx] at h
    simp only [bind, Except.bind, Except.error.injEq] at h
    rw [← h]; exact hx e' hxx
  | ok a =>
    rw [hxx] at h
    simp only [bind, Except.bind] at h
    exact hf a hxx e h

theorem onlyArith_expect {α : Type} {o : Option α} {er : Err} (h : o ≠ none) : OnlyArith (expect o er) := by
  intro e he
  cases o with
  | none => exact absurd rfl h
  | some a => cases he

theorem onlyArith_chk (a : Int) : OnlyArith (chk a) := by
  intro e h; unfold chk at h; split at h
  · cases h
  · cases h; rfl

theorem onlyArith_uadd (a b : Nat) : OnlyArith (uadd a b) := by
  intro e h; unfold uadd at h; split at h
  · cases h
  · cases h; rfl

theorem onlyArith_ddiv (a b : Dec) : OnlyArith (ddiv a b) := by
  intro e h; unfold ddiv at h; split at h
  · cases h; rfl
  · exact onlyArith_chk _ e h

theorem mapM_ok {α β : Type} {f : α → R β} : ∀ {l : List α} {out : List β}, l.mapM f = Except.ok out →
    List.Forall₂ (fun a b => f a = Except.ok b) l out := by
  intro l
  induction l with
  | nil => intro out h; rw [List.mapM_nil, pure_ok] at h; subst h; exact .nil
  | cons a l ih =>
    intro out h
    rw [List.mapM_cons] at h
    simp only [bind_ok, pure_ok] at h
    obtain ⟨b, hb, bs, hbs, rfl⟩ := h
    exact .cons hb (ih hbs)

theorem onlyArith_mapM {α β : Type} {f : α → R β} : ∀ {l : List α}, (∀ a ∈ l, OnlyArith (f a)) → OnlyArith (l.mapM f) := by
  intro l
  induction l with
  | nil => intro _; rw [List.mapM_nil]; exact onlyArith_pure _
  | cons a l ih =>
    intro h
    rw [List.mapM_cons]
    exact onlyArith_bind (h a (by simp)) (fun b _ => onlyArith_bind (ih (fun x hx => h x (by simp [hx])))
      (fun _ _ => onlyArith_pure _))

theorem forall₂_map {α β γ : Type} {r : α → β → Prop} {f : α → γ} {g : β → γ} {l : List α} {m : List β}
    (h : List.Forall₂ r l m) (hr : ∀ a b, r a b → g b = f a) : m.map g = l.map f := by
  induction h with
  | nil => rfl
  | cons h _ ih => simp [hr _ _ h, ih]

theorem forall₂_mem {α β : Type} {r : α → β → Prop} {l : List α} {m : List β}
    (h : List.Forall₂ r l m) {b : β} (hb : b ∈ m) : ∃ a ∈ l, r a b := by
  induction h with
  | nil => simp at hb
  | cons h _ ih =>
    rcases List.mem_cons.mp hb with rfl | hb
    · exact ⟨_, by simp, h⟩
    · obtain ⟨a, ha, hr⟩ := ih hb; exact ⟨a, by simp [ha], hr⟩

/-! ## Specification -/

/-- What the report says about one open position. -/
structure PositionReported (s : State) (acc : Account) (x : PositionDetails) : Prop where
  position : ∃ pos, acc.positions.get x.pair = some pos ∧ x.amount = pos.amount ∧ x.cost = pos.cost ∧
    x.funding = pos.fundingDue (s.pool.position s.now x.pair)
  margins : ∃ c, s.config.pairs.get x.pair = some c ∧ x.marginInitial = mulT |x.amount| c.decompress.marginInitial ∧
    x.marginMaintenance = mulT |x.amount| c.decompress.marginMaintenance

/-- What the report says about one kind of collateral. -/
structure CollateralReported (s : State) (acc : Account) (x : CollateralDetails) : Prop where
  held : x.amount = (acc.collateral.get x.resource).getD 0
  config : ∃ c, s.config.collaterals.get x.resource = some c ∧ x.pair = c.pairId ∧ x.discount = c.decompress.discount ∧
    x.margin = mulT x.amount c.decompress.margin

/-- The report about an account: complete and correct. -/
structure AccountReported (s : State) (acc : Account) (n : Nat) (stop : Option Nat) (d : AccountDetails) : Prop where
  vb : d.virtualBalance = acc.vb
  start : d.validRequestsStart = acc.validStart
  len : d.requestsLen = acc.requests.length
  /-- one entry for each open position -/
  pairs : d.positions.map PositionDetails.pair = acc.positions.keys
  positions : ∀ x ∈ d.positions, PositionReported s acc x
  /-- one entry for each accepted collateral -/
  resources : d.collaterals.map CollateralDetails.resource = s.config.collaterals.keys
  collaterals : ∀ x ∈ d.collaterals, CollateralReported s acc x
  /-- exactly the requests that can still be executed or activated, newest first -/
  active : ∀ i (r : KeeperRequest), (i, r) ∈ d.activeRequests ↔
    acc.requests[i]? = some r ∧ acc.validStart ≤ i ∧ (r.status = STATUS_ACTIVE ∨ r.status = STATUS_DORMANT)
  sorted : (d.activeRequests.map Prod.fst).Pairwise (· > ·)
  /-- at most `n` requests counting back from `stop` (or the last one) -/
  history : ∀ k : Nat, d.requestsHistory[k]? =
    let e := stop.elim acc.requests.length (fun x => min (x + 1) acc.requests.length)
    if k < n ∧ k < e then (acc.requests[e - 1 - k]?).map (fun r => (e - 1 - k, r)) else none
  referral : d.referral.map Prod.fst = acc.referralId ∧
    ∀ id data, d.referral = some (id, data) → s.referrals.get id = some data

/-! ## Proofs -/

theorem tailEnd_ok {len e : Nat} {stop : Option Nat} (h : tailEnd len stop = Except.ok e) :
    e = stop.elim len (fun x => min (x + 1) len) := by
  unfold tailEnd at h
  cases stop with
  | none => simp only [pure_ok] at h; rw [h]; rfl
  | some x =>
    simp only [bind_ok, uadd_ok, pure_ok] at h
    obtain ⟨y, ⟨-, rfl⟩, rfl⟩ := h; rfl

theorem requestsTail_ok {a : Account} {n : Nat} {stop : Option Nat} {l : List (Nat × KeeperRequest)}
    (h : requestsTail a n stop = Except.ok l) (k : Nat) : l[k]? =
    let e := stop.elim a.requests.length (fun x => min (x + 1) a.requests.length)
    if k < n ∧ k < e then (a.requests[e - 1 - k]?).map (fun r => (e - 1 - k, r)) else none := by
  simp only [requestsTail, bind_ok, pure_ok] at h
  obtain ⟨e, he, rfl⟩ := h
  have he' := tailEnd_ok he
  rw [← he']
  have hle : e ≤ a.requests.length := by
    rw [he']; cases stop
    · exact Nat.le_refl _
    · exact Nat.min_le_right _ _
  simp only
  rw [List.zip_eq_zipWith, List.getElem?_zipWith']
  by_cases hk : k < n ∧ k < e
  · rw [if_pos hk]
    have h1 : (List.range' (e - min n e) (e - (e - min n e))).reverse[k]? = some (e - 1 - k) := by
      rw [List.getElem?_reverse (by simp; omega), List.getElem?_range' (by simp; omega)]
      simp; omega
    have h2 : (List.take (e - (e - min n e)) (List.drop (e - min n e) a.requests)).reverse[k]? = a.requests[e - 1 - k]? := by
      have hlen : (List.take (e - (e - min n e)) (List.drop (e - min n e) a.requests)).length = min n e := by
        simp; omega
      rw [List.getElem?_reverse (by rw [hlen]; omega), hlen, List.getElem?_take, if_pos (by omega), List.getElem?_drop]
      congr 1; omega
    rw [h1, h2]; rfl
  · rw [if_neg hk]
    have h1 : (List.range' (e - min n e) (e - (e - min n e))).reverse[k]? = none := by
      apply List.getElem?_eq_none; simp; omega
    rw [h1]; rfl

theorem mem_descending {x : Finset Nat} {i : Nat} : i ∈ descending x ↔ i ∈ x := by
  simp only [descending, List.mem_reverse, List.mem_filter, List.mem_range, decide_eq_true_eq]
  refine ⟨fun h => h.2, fun h => ⟨?_, h⟩⟩
  have : id i ≤ x.sup id := Finset.le_sup (f := id) h
  simp only [id] at this; omega

theorem descending_sorted (x : Finset Nat) : (descending x).Pairwise (· > ·) := by
  rw [descending, List.pairwise_reverse]
  exact (List.pairwise_lt_range).filter _

theorem activeRequests_ok {a : Account} {l : List (Nat × KeeperRequest)} (h : activeRequests a = Except.ok l) :
    (∀ i (r : KeeperRequest), (i, r) ∈ l ↔ i ∈ a.active ∧ a.requests[i]? = some r) ∧ (l.map Prod.fst).Pairwise (· > ·) := by
  have hf := mapM_ok h
  have hmap : l.map Prod.fst = descending a.active := by
    have := forall₂_map (f := id) (g := Prod.fst) hf ?_
    · simpa using this
    · intro i b hb
      simp only [bind_ok, expect_ok, pure_ok] at hb
      obtain ⟨r, -, rfl⟩ := hb; rfl
  refine ⟨fun i r => ⟨fun hm => ?_, fun ⟨hi, hr⟩ => ?_⟩, ?_⟩
  · obtain ⟨j, hj, hb⟩ := forall₂_mem hf hm
    simp only [bind_ok, expect_ok, pure_ok, Prod.mk.injEq] at hb
    obtain ⟨r', hr', rfl, rfl⟩ := hb
    exact ⟨mem_descending.mp hj, hr'⟩
  · have : i ∈ l.map Prod.fst := by rw [hmap]; exact mem_descending.mpr hi
    obtain ⟨⟨i', r'⟩, hm, rfl⟩ := List.mem_map.mp this
    obtain ⟨j, hj, hb⟩ := forall₂_mem hf hm
    simp only [bind_ok, expect_ok, pure_ok, Prod.mk.injEq] at hb
    obtain ⟨r2, hr2, rfl, rfl⟩ := hb
    simp only at hr
    rw [hr2] at hr; cases hr
    exact hm
  · rw [hmap]
    exact descending_sorted _

/-- **C52, accounts.** Whatever `get_account_details` answers is complete and correct. -/
theorem c52_account {env : Env} {s : State} (h : Reach env s) {a : Addr} {n : Nat} {stop : Option Nat} {d : AccountDetails}
    (hd : getAccountDetails s a n stop = Except.ok d) :
    ∃ acc, s.accounts.get a = some acc ∧ AccountReported s acc n stop d := by
  simp only [getAccountDetails, bind_ok, pure_ok] at hd
  obtain ⟨v, hv, cfg, hcfg, ps, hps, cs, hcs, act, hact, hist, hhist, ref, href, rfl⟩ := hd
  obtain ⟨acc, rd, hg, hrd, rfl⟩ := load_ok hv
  obtain ⟨-, hcolls, hpairs, -⟩ := VConfig.new_ok hcfg
  have fp := mapM_ok hps
  have fc := mapM_ok hcs
  refine ⟨acc, hg, rfl, rfl, rfl, ?_, ?_, ?_, ?_, ?_, (activeRequests_ok hact).2, requestsTail_ok hhist, ?_⟩
  · refine forall₂_map fp ?_
    intro e b hb
    simp only [positionDetails, bind_ok, pure_ok] at hb
    obtain ⟨_, -, _, -, _, -, _, -, _, -, _, -, rfl⟩ := hb; rfl
  · intro x hx
    obtain ⟨e, he, hb⟩ := forall₂_mem fp hx
    simp only [positionDetails, bind_ok, pure_ok] at hb
    obtain ⟨pc, hpc, pp, hpp, fu, hfu, y, hy, mi, hmi, mm, hmm, rfl⟩ := hb
    have hpos := AMap.get_mem he
    simp only [VPool.position, VPool.new, expect_ok, AMap.get_build] at hpp
    have hin : e.1 ∈ acc.positions.keys := AMap.mem_keys.mpr ⟨_, hpos⟩
    replace hpp : (if e.1 ∈ acc.positions.keys then some (s.pool.position s.now e.1) else none) = some pp := hpp
    rw [if_pos hin] at hpp
    cases hpp
    simp only [dabs_ok, dmul_ok] at hy hmi hmm
    obtain ⟨-, rfl⟩ := hy
    obtain ⟨c, hc, hc'⟩ := hpairs e.1 hin
    simp only [VConfig.pair, expect_ok] at hpc
    rw [hpc] at hc'; cases hc'
    refine ⟨⟨e.2, hpos, rfl, rfl, ?_⟩, ⟨c, hc, hmi.2.symm, hmm.2.symm⟩⟩
    rw [positionFunding_ok hfu, fundingOwed_eq]
  · have := forall₂_map (f := Prod.fst) (g := CollateralDetails.resource) fc ?_
    · rw [this, hcolls]; simp [AMap.keys, AMap.mapV, Function.comp_def]
    · intro e b hb
      simp only [collateralDetails, bind_ok, pure_ok] at hb
      obtain ⟨_, -, rfl⟩ := hb; rfl
  · intro x hx
    obtain ⟨e, he, hb⟩ := forall₂_mem fc hx
    simp only [collateralDetails, bind_ok, pure_ok, dmul_ok] at hb
    obtain ⟨m, ⟨-, rfl⟩, rfl⟩ := hb
    have hcc := AMap.get_mem he
    rw [hcolls, AMap.get_mapV] at hcc
    cases hc : s.config.collaterals.get e.1 with
    | none => rw [hc] at hcc; cases hcc
    | some c =>
      rw [hc] at hcc
      simp only [Option.map_some, Option.some.injEq] at hcc
      refine ⟨(c25_recorded_is_held h hg e.1).1, c, hc, ?_, ?_, ?_⟩
      · simp only; rw [← hcc]; rfl
      · simp only; rw [← hcc]
      · simp only; rw [← hcc]
  · intro i r
    rw [(activeRequests_ok hact).1 i r]
    rw [c13_active_exact h hg i]
    constructor
    · rintro ⟨⟨h1, r', h2, h3⟩, h4⟩
      rw [h4] at h2; cases h2
      exact ⟨h4, h1, h3⟩
    · rintro ⟨h1, h2, h3⟩
      exact ⟨⟨h2, r, h1, h3⟩, h1⟩
  · unfold VAccount.referral at href
    rcases loadReferral_ok hrd with ⟨e1, e2⟩ | ⟨r, dd, e1, e2, e3⟩
    · simp only [e1, pure_ok] at href
      rw [← href, e1]
      exact ⟨rfl, fun id data hh => by cases hh⟩
    · simp only [e1, e3, bind_ok, expect_ok, pure_ok] at href
      obtain ⟨d', hd', rfl⟩ := href
      cases hd'
      rw [e1]
      exact ⟨rfl, fun id data hh => by simp at hh; rw [← hh.1, ← hh.2]; exact e2⟩

theorem VConfig.new_total {c : Config} {ids : List PairId} (h : ∀ p ∈ ids, ∃ x, c.pairs.get p = some x) :
    ∃ v, VConfig.new c ids = Except.ok v := by
  have : ∃ m, AMap.buildM c.pair ids = Except.ok m := by
    induction ids with
    | nil => exact ⟨_, rfl⟩
    | cons p ids ih =>
      obtain ⟨m, hm⟩ := ih (fun q hq => h q (by simp [hq]))
      obtain ⟨x, hx⟩ := h p (by simp)
      have hp : c.pair p = Except.ok x.decompress := by simp [Config.pair, expect, hx, bind, Except.bind, pure, Except.pure]
      simp only [AMap.buildM, hm, hp, bind, Except.bind]
      exact ⟨_, rfl⟩
  obtain ⟨m, hm⟩ := this
  simp only [VConfig.new, hm, bind, Except.bind]
  exact ⟨_, rfl⟩

/-- Loading an account that exists never fails. -/
theorem State.load_total {env : Env} {s : State} (h : Reach env s) {a : Addr} {acc : Account} (ha : s.accounts.get a = some acc) :
    ∃ v, s.load a = Except.ok v := by
  have : ∃ rd, loadReferral s.referrals acc.referralId = Except.ok rd := by
    cases hr : acc.referralId with
    | none => exact ⟨_, rfl⟩
    | some id =>
      obtain ⟨d, hd⟩ := (reach_resolves h).referral a acc id ha hr
      exact ⟨some d, by simp [loadReferral, expect, hd, bind, Except.bind, pure, Except.pure]⟩
  obtain ⟨rd, hrd⟩ := this
  simp only [State.load, VAccount.new, ha, expect, hrd, bind, Except.bind]
  exact ⟨_, rfl⟩

theorem onlyArith_ok {α : Type} {x : R α} (h : ∃ a, x = Except.ok a) : OnlyArith x := by
  obtain ⟨a, rfl⟩ := h; exact onlyArith_pure a

theorem onlyArith_positionFunding (pp : PoolPosition) (pos : AccountPosition) : OnlyArith (positionFunding pp pos) := by
  unfold positionFunding
  split
  · exact onlyArith_bind (onlyArith_chk _) (fun _ _ => onlyArith_chk _)
  · exact onlyArith_bind (onlyArith_chk _) (fun _ _ => onlyArith_bind (onlyArith_chk _) (fun _ _ => onlyArith_chk _))

/-- **C52, accounts can always be read.** In every reachable state `get_account_details` of an existing account answers,
unless a reported number does not fit in a decimal (or `history_start` is the largest 64-bit number). -/
theorem c52_account_answers {env : Env} {s : State} (h : Reach env s) {a : Addr} {acc : Account}
    (ha : s.accounts.get a = some acc) (n : Nat) (stop : Option Nat) {e : Err}
    (he : getAccountDetails s a n stop = Except.error e) : e = .arithmetic := by
  revert he e
  change OnlyArith (getAccountDetails s a n stop)
  unfold getAccountDetails
  refine onlyArith_bind (onlyArith_ok (State.load_total h ha)) (fun v hv => ?_)
  obtain ⟨acc', rd, hg, hrd, rfl⟩ := load_ok hv
  rw [ha] at hg; cases hg
  have hpairs : ∀ p ∈ acc.positions.keys, ∃ x, s.config.pairs.get p = some x := by
    intro p hp
    obtain ⟨pos, hpos⟩ := AMap.mem_keys.mp hp
    exact (reach_resolves h).position a acc p pos ha hpos
  refine onlyArith_bind (onlyArith_ok (VConfig.new_total hpairs)) (fun cfg hcfg => ?_)
  refine onlyArith_bind (onlyArith_mapM (fun x hx => ?_)) (fun _ _ => ?_)
  · have hpos := AMap.get_mem hx
    have hin : x.1 ∈ acc.positions.keys := AMap.mem_keys.mpr ⟨_, hpos⟩
    obtain ⟨c, -, hc⟩ := (VConfig.new_ok hcfg).2.2.1 x.1 hin
    unfold positionDetails
    refine onlyArith_bind (onlyArith_expect (by rw [hc]; simp)) (fun _ _ => ?_)
    refine onlyArith_bind (onlyArith_expect ?_) (fun _ _ => ?_)
    · change (AMap.build (s.pool.position s.now) acc.positions.keys).get x.1 ≠ none
      rw [AMap.get_build, if_pos hin]; simp
    · exact onlyArith_bind (onlyArith_positionFunding _ _) (fun _ _ => onlyArith_bind (onlyArith_chk _) (fun _ _ =>
        onlyArith_bind (onlyArith_chk _) (fun _ _ => onlyArith_bind (onlyArith_chk _) (fun _ _ => onlyArith_pure _))))
  refine onlyArith_bind (onlyArith_mapM (fun x hx => onlyArith_bind (onlyArith_chk _) (fun _ _ => onlyArith_pure _))) (fun _ _ => ?_)
  refine onlyArith_bind (onlyArith_mapM (fun i hi => ?_)) (fun _ _ => ?_)
  · have hi' := mem_descending.mp hi
    obtain ⟨-, r, hr, -⟩ := (c13_active_exact h ha i).mp hi'
    exact onlyArith_bind (onlyArith_expect (by rw [hr]; simp)) (fun _ _ => onlyArith_pure _)
  refine onlyArith_bind ?_ (fun _ _ => ?_)
  · unfold requestsTail
    refine onlyArith_bind ?_ (fun _ _ => onlyArith_pure _)
    unfold tailEnd
    cases stop with
    | none => exact onlyArith_pure _
    | some x => exact onlyArith_bind (onlyArith_uadd _ _) (fun _ _ => onlyArith_pure _)
  refine onlyArith_bind ?_ (fun _ _ => onlyArith_pure _)
  unfold VAccount.referral
  rcases loadReferral_ok hrd with ⟨e1, e2⟩ | ⟨r, dd, e1, e2, e3⟩
  · simp only [e1]; exact onlyArith_pure _
  · simp only [e1, e3]; exact onlyArith_bind (onlyArith_expect (by simp)) (fun _ _ => onlyArith_pure _)

/-- **C52, the pool.** `get_pool_details` reports the stored pool, the price at which liquidity is bought and the skew
ratio that orders are limited by; it only fails if one of them does not fit in a decimal. -/
theorem c52_pool (s : State) :
    (∀ d, getPoolDetails s = Except.ok d →
      d.baseTokensAmount = s.pool.baseTokens ∧ d.virtualBalance = s.pool.vb ∧ d.unrealizedPoolFunding = s.pool.unrealizedFunding ∧
      d.pnlSnap = s.pool.pnlSnap ∧ d.lpSupply = s.lpSupply ∧ d.lpPrice = s.lpPrice ∧ d.skewRatio = s.pool.skewRatio ∧
      d.skewRatioCap = s.config.exchange.decompress.skewRatioCap) ∧
    ∀ e, getPoolDetails s = Except.error e → e = .arithmetic := by
  refine ⟨fun d hd => ?_, ?_⟩
  · simp only [getPoolDetails, bind_ok, pure_ok] at hd
    obtain ⟨cfg, hcfg, pv, hpv, pr, hpr, ratio, hra, rfl⟩ := hd
    refine ⟨rfl, rfl, rfl, rfl, rfl, ?_, ?_, ?_⟩
    · simp only; rw [quotedPrice_ok hpr, State.lpPrice, poolValue_ok hpv]; rfl
    · simp only; rw [skewRatio_ok hra]; rfl
    · simp only; rw [VConfig.new_ex hcfg]
  · change OnlyArith (getPoolDetails s)
    have hv : OnlyArith (poolValue (VPool.new s.pool s.now [])) :=
      onlyArith_bind (onlyArith_chk _) (fun _ _ => onlyArith_bind (onlyArith_chk _) (fun _ _ => onlyArith_chk _))
    unfold getPoolDetails
    refine onlyArith_bind (onlyArith_ok (VConfig.new_total (by simp))) (fun _ _ => onlyArith_bind hv (fun _ _ =>
      onlyArith_bind ?_ (fun _ _ => onlyArith_bind ?_ (fun _ _ => onlyArith_pure _))))
    · unfold quotedPrice; split
      · exact onlyArith_pure _
      · exact onlyArith_ddiv _ _
    · exact onlyArith_bind hv (fun _ _ => onlyArith_ddiv _ _)

/-- **C52, pairs.** `get_pair_details` answers exactly when every pair asked for has been configured; it reports, in the
order asked for, the configuration in force and the pool's totals for the pair (those of an untraded pair if there are none). -/
theorem c52_pairs (s : State) (ids : List PairId) :
    ((∃ ds, getPairDetails s ids = Except.ok ds) ↔ ∀ p ∈ ids, ∃ c, s.config.pairs.get p = some c) ∧
    ∀ ds, getPairDetails s ids = Except.ok ds → ds.map PairDetails.pair = ids ∧
      ∀ x ∈ ds, x.position = (s.pool.positions.get x.pair).getD (PoolPosition.dflt s.now) ∧
        ∃ c, s.config.pairs.get x.pair = some c ∧ x.config = c.decompress := by
  refine ⟨⟨fun ⟨ds, hd⟩ => ?_, fun hall => ?_⟩, fun ds hd => ?_⟩
  · simp only [getPairDetails, bind_ok] at hd
    obtain ⟨cfg, hcfg, -⟩ := hd
    intro p hp
    obtain ⟨x, hx, -⟩ := (VConfig.new_ok hcfg).2.2.1 p hp
    exact ⟨x, hx⟩
  · obtain ⟨cfg, hcfg⟩ := VConfig.new_total hall
    simp only [getPairDetails, hcfg, bind, Except.bind]
    have : ∀ l : List PairId, (∀ p ∈ l, p ∈ ids) → ∃ ds, l.mapM (pairDetails cfg (VPool.new s.pool s.now ids)) = Except.ok ds := by
      intro l
      induction l with
      | nil => intro _; exact ⟨[], rfl⟩
      | cons p l ih =>
        intro hl
        obtain ⟨ds, hds⟩ := ih (fun q hq => hl q (by simp [hq]))
        obtain ⟨c, -, hc⟩ := (VConfig.new_ok hcfg).2.2.1 p (hl p (by simp))
        have hp : (AMap.build (s.pool.position s.now) ids).get p = some (s.pool.position s.now p) := by
          rw [AMap.get_build, if_pos (hl p (by simp))]
        rw [List.mapM_cons, hds]
        simp only [pairDetails, VConfig.pair, VPool.position, VPool.new, hc, hp, expect, bind, Except.bind, pure, Except.pure]
        exact ⟨_, rfl⟩
    exact this ids (fun _ h => h)
  · simp only [getPairDetails, bind_ok] at hd
    obtain ⟨cfg, hcfg, hm⟩ := hd
    have hf := mapM_ok hm
    refine ⟨?_, fun x hx => ?_⟩
    · have := forall₂_map (f := id) (g := PairDetails.pair) hf ?_
      · simpa using this
      · intro p b hb
        simp only [pairDetails, bind_ok, pure_ok] at hb
        obtain ⟨_, -, _, -, rfl⟩ := hb; rfl
    · obtain ⟨p, hp, hb⟩ := forall₂_mem hf hx
      simp only [pairDetails, bind_ok, pure_ok, VConfig.pair, VPool.position, VPool.new, expect_ok, AMap.get_build, if_pos hp,
        Option.some.injEq] at hb
      obtain ⟨pc, hpc, pp, rfl, rfl⟩ := hb
      obtain ⟨-, c, hc, rfl⟩ := (VConfig.new_ok hcfg).2.2.2 p pc hpc
      exact ⟨rfl, c, hc, rfl⟩

/-- Configurations are stored under the pair they are for. -/
theorem reach_pairIds {env : Env} {s : State} (h : Reach env s) {p : PairId} {x : PairConfigC}
    (hx : s.config.pairs.get p = some x) : x.pairId = p := by
  have : ∀ p x, s.config.pairs.get p = some x → x.pairId = p := by
    refine Reach.induct (P := fun s => ∀ p x, s.config.pairs.get p = some x → x.pairId = p) (env := env) ?_ ?_ h
    · intro s g p x hx; rw [g.config.1] at hx; simp at hx
    · intro s s' cl op o ih hb
      rcases (body_admin hb).config with e | ⟨c, -, e⟩ | ⟨cs, -, e⟩ | ⟨cs, -, e⟩ | ⟨r, -, e⟩
      · rw [e]; exact ih
      · simp only [Config.updateExchange, bind_ok, require_ok, pure_ok] at e
        obtain ⟨-, -, ec, -, e⟩ := e
        rw [← e]; exact ih
      · refine foldlM_rel (P := fun c c' : Config => (∀ p x, c.pairs.get p = some x → x.pairId = p) →
          ∀ p x, c'.pairs.get p = some x → x.pairId = p) (fun _ h => h) (fun _ _ _ h1 h2 h => h2 (h1 h)) ?_ _ e ih
        intro c1 b c2 h2 hi p x hx
        simp only [Config.updatePair, bind_ok, require_ok, pure_ok] at h2
        obtain ⟨-, -, xc, hxc, rfl⟩ := h2
        simp only [AMap.get_set] at hx
        split at hx
        · rename_i he; cases hx; rw [← he]
          simp only [PairConfig.compress, bind_ok, pure_ok] at hxc
          obtain ⟨_, -, _, -, _, -, _, -, _, -, _, -, _, -, _, -, _, -, _, -, _, -, _, -, _, -, _, -, rfl⟩ := hxc; rfl
        · exact hi p x hx
      · rw [updateCollaterals_pairs e]; exact ih
      · rw [e]; exact ih
  exact this p x hx

/-- **C52, the list of pairs.** Reading `get_pairs` page by page, with any page size, yields every configured pair once,
in the order in which they were first configured; every open position and every order is in one of them. -/
theorem c52_pair_pages {env : Env} {s : State} (h : Reach env s) (n pages : Nat)
    (hall : getPairConfigsLen s ≤ pages * n) (hov : pages * n < 2 ^ 64) :
    ∃ out : Nat → List PairId, (∀ i < pages, getPairs s n (some (i * n)) = Except.ok (out i)) ∧
      (List.range pages).flatMap out = s.config.pairs.keys ∧ s.config.pairs.keys.Nodup ∧
      (∀ a acc p pos, s.accounts.get a = some acc → acc.positions.get p = some pos → p ∈ (List.range pages).flatMap out) ∧
      (∀ i < pages, ∃ cs, getPairConfigs s n (some (i * n)) = Except.ok cs ∧ cs.map PairConfig.pairId = out i) := by
  have hid : ∀ e ∈ s.config.pairs.entries, e.2.pairId = e.1 := fun e he => reach_pairIds h (AMap.get_mem he)
  have hkeys : s.config.pairs.entries.map (fun e => e.2.pairId) = s.config.pairs.keys :=
    List.map_congr_left hid
  have page : ∀ i < pages, pairPage s n (some (i * n)) = Except.ok ((s.config.pairs.entries.drop (i * n)).take n) := by
    intro i hi
    have hb : i * n + n ≤ pages * n := by
      have := Nat.mul_le_mul_right n (Nat.succ_le_of_lt hi)
      rw [Nat.succ_mul] at this; exact this
    have hu : uadd (i * n) n = Except.ok (i * n + n) := uadd_ok.mpr ⟨by omega, rfl⟩
    simp only [pairPage, Option.getD_some, hu, bind, Except.bind, pure, Except.pure, AMap.size]
    rw [take_min_sub]
  have hflat : (List.range pages).flatMap (fun i => (s.config.pairs.keys.drop (i * n)).take n) = s.config.pairs.keys := by
    apply flatMap_pages n
    rw [AMap.keys, List.length_map]; exact hall
  refine ⟨fun i => (s.config.pairs.keys.drop (i * n)).take n, ?_, hflat, AMap.keys_nodup _, ?_, ?_⟩
  · intro i hi
    simp only [getPairs, page i hi, bind, Except.bind, pure, Except.pure, Except.ok.injEq]
    rw [← hkeys, List.map_take, List.map_drop]
  · intro a acc p pos ha hp
    rw [hflat]
    obtain ⟨x, hx⟩ := (reach_resolves h).position a acc p pos ha hp
    exact AMap.mem_keys.mpr ⟨x, hx⟩
  · intro i hi
    simp only [getPairConfigs, page i hi, bind, Except.bind, pure, Except.pure]
    refine ⟨_, rfl, ?_⟩
    rw [List.map_map, ← hkeys, ← List.map_drop, ← List.map_take]
    rfl

/-- **C52, referrals.** `get_referral_details` answers exactly for the referrals that exist, with the stored data and
all allocations; the referral of every account, code and allocation exists. -/
theorem c52_referrals {env : Env} {s : State} (h : Reach env s) :
    (∀ id d as, getReferralDetails s id = Except.ok (d, as) ↔
      s.referrals.get id = some d ∧ as = (s.refgen.allocations.get id).getD []) ∧
    (∀ a acc id, s.accounts.get a = some acc → acc.referralId = some id → ∃ x, getReferralDetails s id = Except.ok x) ∧
    (∀ hash c, s.refgen.codes.get hash = some c → ∃ x, getReferralDetails s c.referralId = Except.ok x) ∧
    (∀ id l, s.refgen.allocations.get id = some l → ∃ x, getReferralDetails s id = Except.ok x) := by
  have ans : ∀ id, (∃ d, s.referrals.get id = some d) → ∃ x, getReferralDetails s id = Except.ok x := by
    intro id ⟨d, hd⟩
    simp only [getReferralDetails, hd, expect, bind, Except.bind]
    exact ⟨_, rfl⟩
  refine ⟨fun id d as => ?_, fun a acc id ha hid => ans id ((reach_resolves h).referral a acc id ha hid),
    fun hh c hc => ans _ ((reach_genKnown h).code hh c hc), fun id l hl => ans _ ((reach_genKnown h).alloc id l hl)⟩
  simp only [getReferralDetails, bind_ok, expect_ok, pure_ok, Prod.mk.injEq]
  constructor
  · rintro ⟨d', h1, rfl, rfl⟩; exact ⟨h1, rfl⟩
  · rintro ⟨h1, rfl⟩; exact ⟨d, h1, rfl, rfl⟩

/-! ## The hypotheses are met -/

namespace Scn

/-- In the state with open positions: account 100 is long 2 in pair 1, with its take-profit and stop-loss orders active
(newest first) and both collateral entries; the last page of two requests ends with the order itself when asked for
requests up to number 1. -/
example : ∃ d, getAccountDetails open_ 100 2 (some 1) = Except.ok d ∧ d.positions.map PositionDetails.amount = [Scn.d 2 0] ∧
    d.activeRequests.map Prod.fst = [2, 1] ∧ d.requestsHistory.map Prod.fst = [1, 0] ∧ d.requestsLen = 3 := by
  have : (match getAccountDetails open_ 100 2 (some 1) with
    | .ok d => decide (d.positions.map PositionDetails.amount = [Scn.d 2 0] ∧
        d.activeRequests.map Prod.fst = [2, 1] ∧ d.requestsHistory.map Prod.fst = [1, 0] ∧ d.requestsLen = 3)
    | .error _ => false) = true := by decide +kernel
  cases h : getAccountDetails open_ 100 2 (some 1) with
  | error e => rw [h] at this; cases this
  | ok d => rw [h] at this; exact ⟨d, rfl, of_decide_eq_true this⟩

/-- Asking for history up to the largest 64-bit index overflows. -/
example : getAccountDetails open_ 100 2 (some (2 ^ 64 - 1)) = Except.error .arithmetic := by
  have : (match getAccountDetails open_ 100 2 (some (2 ^ 64 - 1)) with
    | .error e => decide (e = .arithmetic) | .ok _ => false) = true := by decide +kernel
  cases h : getAccountDetails open_ 100 2 (some (2 ^ 64 - 1)) with
  | error e => rw [h] at this; rw [of_decide_eq_true this]
  | ok d => rw [h] at this; cases this

/-- Two pages of one pair each list both pairs. -/
example : getPairs open_ 1 (some 0) = Except.ok [1] ∧ getPairs open_ 1 (some 1) = Except.ok [2] := by decide +kernel

end Scn

end Perp
