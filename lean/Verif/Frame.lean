import Verif.Step
import Verif.DFloatProps

/-!
# Frames: which parts of the ledger state each method leaves alone
-/

namespace Perp

theorem commit_ok {s s' : State} {w : W} :
    s.commit w = Except.ok s' ↔ ∃ acc refs, w.acc.realize = Except.ok acc ∧
      w.acc.realizeReferral s.referrals = Except.ok refs ∧
      s' = { s with pool := w.pool.realize, accounts := s.accounts.set w.acc.addr acc,
                    referrals := refs, dist := w.dist } := by
  simp only [State.commit, bind_ok, pure_ok]
  constructor
  · rintro ⟨acc, h1, refs, h2, rfl⟩; exact ⟨acc, refs, h1, h2, rfl⟩
  · rintro ⟨acc, refs, h1, h2, rfl⟩; exact ⟨acc, h1, refs, h2, rfl⟩

theorem commitAcc_ok {s s' : State} {v : VAccount} :
    s.commitAcc v = Except.ok s' ↔ ∃ acc refs, v.realize = Except.ok acc ∧
      v.realizeReferral s.referrals = Except.ok refs ∧
      s' = { s with accounts := s.accounts.set v.addr acc, referrals := refs } := by
  simp only [State.commitAcc, bind_ok, pure_ok]
  constructor
  · rintro ⟨acc, h1, refs, h2, rfl⟩; exact ⟨acc, refs, h1, h2, rfl⟩
  · rintro ⟨acc, refs, h1, h2, rfl⟩; exact ⟨acc, h1, refs, h2, rfl⟩

theorem burnOath_ok {env : Env} {s s' : State} {b : Bucket} :
    s.burnOath env b = Except.ok s' ↔ okBucket env s b = true ∧
      s' = { s with oathSupply := s.oathSupply - b.amt } := by
  simp only [State.burnOath, bind_ok, pure_ok, require_ok]
  constructor
  · rintro ⟨-, h, rfl⟩; exact ⟨h, rfl⟩
  · rintro ⟨h, rfl⟩; exact ⟨(), h, rfl⟩

theorem mintReward_ok {env : Env} {s s' : State} {x : Dec} (h : s.mintReward env x = Except.ok s') :
    0 ≤ x ∧ s' = { s with rewardSupply := s.rewardSupply + x } := by
  simp only [State.mintReward, bind_ok, pure_ok, mintAmount_ok, dadd_ok] at h
  obtain ⟨_, ⟨h0, -, -, rfl⟩, _, ⟨-, rfl⟩, rfl⟩ := h
  exact ⟨h0, rfl⟩

/-- The context loaded for an operation that settles a fee oath. -/
theorem oathLoad_ok {env : Env} {s : State} {ids : List PairId} {c : Ctx} {pool : VPool}
    (h : oathLoad env s ids = Except.ok (c, pool)) :
    c.env = env ∧ c.now = s.now ∧ VConfig.new s.config ids = Except.ok c.cfg ∧
    VOracle.new env s.now s.oracle c.cfg.colls (pairFeedsNoMaxAge ids) none
      = Except.ok (s.oracle, c.orc) ∧
    pool = VPool.new s.pool s.now ids := by
  simp only [oathLoad, bind_ok, pure_ok, Prod.mk.injEq] at h
  obtain ⟨cfg, hc, ⟨o, orc⟩, ho, rfl, rfl⟩ := h
  refine ⟨rfl, rfl, hc, ?_, rfl⟩
  simp only
  have : o = s.oracle := by
    simp only [VOracle.new, Oracle.maybePush, bind_ok, pure_ok, Prod.mk.injEq] at ho
    obtain ⟨_, rfl, _, _, _, _, rfl, _⟩ := ho
    rfl
  rw [this] at ho
  exact ho

/-- The context loaded for a keeper operation. -/
theorem keeperLoad_ok {env : Env} {s s' : State} {ids : List PairId} {u : Option PriceUpdate}
    {c : Ctx} {pool : VPool} (h : keeperLoad env s ids u = Except.ok (s', c, pool)) :
    c.env = env ∧ c.now = s.now ∧ VConfig.new s.config ids = Except.ok c.cfg ∧
    s.oracle.maybePush env u = Except.ok s'.oracle ∧
    (∃ feeds, pairFeeds c.cfg ids = Except.ok feeds ∧
      VOracle.new env s.now s.oracle c.cfg.colls feeds u = Except.ok (s'.oracle, c.orc)) ∧
    pool = VPool.new s.pool s.now ids ∧ s' = { s with oracle := s'.oracle } := by
  simp only [keeperLoad, bind_ok, pure_ok, Prod.mk.injEq] at h
  obtain ⟨cfg, hc, feeds, hf, ⟨o, orc⟩, ho, rfl, rfl, rfl⟩ := h
  refine ⟨rfl, rfl, hc, ?_, ⟨feeds, hf, ho⟩, rfl, rfl⟩
  simp only [VOracle.new, bind_ok, pure_ok, Prod.mk.injEq] at ho
  obtain ⟨o', ho', _, _, _, _, rfl, _⟩ := ho
  exact ho'

/-- What paying a fee oath does: it burns the oath and debits the account, nothing else. -/
theorem payOath_ok {env : Env} {s s' : State} {v v' : VAccount} {oath : Option Bucket}
    {ids plain : List PairId} {cfg : VConfig}
    (h : payOath env s v oath ids plain = Except.ok (s', v', cfg)) :
    (∃ b c pool, oath = some b ∧ oathLoad env s ids = Except.ok (c, pool) ∧ b.res = FEE_OATH ∧
      okBucket env s b = true ∧ v' = { v with vb := v.vb - b.amt } ∧
      assertAccountIntegrity c pool v' = Except.ok () ∧ cfg = c.cfg ∧
      s' = { s with oathSupply := s.oathSupply - b.amt }) ∨
    (oath = none ∧ v' = v ∧ s' = s ∧ VConfig.new s.config plain = Except.ok cfg) := by
  unfold payOath at h
  cases oath with
  | none =>
    simp only [bind_ok, pure_ok, Prod.mk.injEq] at h
    obtain ⟨x, hx, rfl, rfl, rfl⟩ := h
    exact Or.inr ⟨rfl, rfl, rfl, hx⟩
  | some b =>
    simp only [bind_ok, pure_ok, Prod.mk.injEq, burnOath_ok, settleFeeOath, require_ok,
      decide_eq_true_eq, VAccount.addVb, dadd_ok, dneg_ok] at h
    obtain ⟨⟨c, pool⟩, hl, v1, ⟨-, hres, n, ⟨-, rfl⟩, v2, ⟨vb, ⟨-, rfl⟩, rfl⟩, ⟨⟩, hi, rfl⟩, s1,
      ⟨hb, rfl⟩, rfl, rfl, rfl⟩ := h
    refine Or.inl ⟨b, c, pool, rfl, hl, hres, hb, ?_, hi, rfl, rfl⟩
    simp [sub_eq_add_neg]

end Perp
