import Verif.Exchange

/-!
# Referral generator — referral_generator/src/referral_generator.rs
-/

namespace Perp

/-- `u64` addition with overflow checks (`overflow-checks = true` in the release profile of
/repo/Cargo.toml). -/
def uadd (a b : Nat) : R Nat := if a + b < 2 ^ 64 then .ok (a + b) else .error .arithmetic

theorem uadd_ok {a b c : Nat} : uadd a b = Except.ok c ↔ a + b < 2 ^ 64 ∧ a + b = c := by
  unfold uadd; split <;> simp_all

/-- Merging buckets by resource: referral_generator.rs:76-84, 138-146 -/
def mergeToken (m : AMap Res Dec) (b : Bucket) : R (AMap Res Dec) := addClaim m (b.res, b.amt)

/-- Total of the claims of one allocation: referral_generator.rs:86-94 (with the multiplier `count`)
and, with `count = 1`, 151-158. -/
def totalClaim (count : Nat) (m : AMap Res Dec) (e : Res × Dec) : R (AMap Res Dec) := do
  require (decide (0 < e.2)) .claimAmount
  let x ← dmul e.2 (ofInt count)
  let y ← dadd (m.getD e.1 0) x
  pure (m.set e.1 y)

/-- Loop body referral_generator.rs:98-112 and 169-183.  State: the merged buckets that are left, the
tokens taken. -/
def takeClaim (env : Env) (t : AMap Res Dec × List Bucket) (e : Res × Dec) :
    R (AMap Res Dec × List Bucket) :=
  match t.1.get e.1 with
  | some avail => do
      require (decide (e.2 ≤ avail)) .insufficientToken
      let x ← takeAmount (env.gran e.1) avail e.2 .toInfinity
      pure (t.1.set e.1 (avail - x), t.2 ++ [⟨e.1, x⟩])
  | none => do
      require (decide (e.2 = 0)) .insufficientToken
      pure t

/-- Splitting the offered tokens into the part that backs the claims and the remainder:
referral_generator.rs:96-113, 167-184 -/
def splitTokens (env : Env) (tokens : List Bucket) (totals : AMap Res Dec) :
    R (List Bucket × List Bucket) := do
  let mapped ← tokens.foldlM mergeToken AMap.empty
  let t ← totals.entries.foldlM (takeClaim env) (mapped, [])
  pure (t.2, t.1.entries.map (fun e => ⟨e.1, e.2⟩))

/-- `get_allocations`: referral_generator.rs:57-63 -/
def RefGen.allocs (g : RefGen) (rid : RefId) : List ReferralAllocation := g.allocations.getD rid []

/-- `add_allocation`: referral_generator.rs:69-130.  Returns (remainder tokens, allocation index). -/
def RefGen.addAllocation (env : Env) (g : RefGen) (tokens : List Bucket) (rid : RefId)
    (claims : List (Res × Dec)) (count : Nat) : R (RefGen × List Bucket × Nat) := do
  let totals ← claims.foldlM (totalClaim count) AMap.empty
  let (taken, rest) ← splitTokens env tokens totals
  let list := g.allocs rid
  let vaults ← vaultPutBatch g.vaults taken
  pure ({ g with vaults, allocations := g.allocations.set rid (list ++ [⟨claims, 0, count⟩]) },
        rest, list.length)

/-- Loop body referral_generator.rs:149-165 -/
def codeTotals (m : AMap Res Dec) (e : Hash × (List (Res × Dec) × Nat)) : R (AMap Res Dec) :=
  if e.2.2 = 1 then e.2.1.foldlM (totalClaim 1) m
  else do
    require (decide (e.2.1.length = 0)) .multiUseWithClaims
    pure m

/-- Recording one new code: referral_generator.rs:187-196, 223-232 -/
def insertCode (codes : AMap Hash ReferralCode) (h : Hash) (c : ReferralCode) :
    R (AMap Hash ReferralCode) := do
  require (!codes.has h) .codeExists
  pure (codes.set h c)

/-- `create_referral_codes`: referral_generator.rs:132-202 -/
def RefGen.createCodes (env : Env) (g : RefGen) (tokens : List Bucket) (rid : RefId)
    (hashes : AMap Hash (List (Res × Dec) × Nat)) : R (RefGen × List Bucket) := do
  let totals ← hashes.entries.foldlM codeTotals AMap.empty
  let (taken, rest) ← splitTokens env tokens totals
  let codes ← hashes.entries.foldlM (fun m e => insertCode m e.1 ⟨rid, e.2.1, 0, e.2.2⟩) g.codes
  let vaults ← vaultPutBatch g.vaults taken
  pure ({ g with vaults, codes }, rest)

/-- `create_referral_codes_from_allocation`: referral_generator.rs:204-234; `hashes` is a set. -/
def RefGen.codesFromAllocation (g : RefGen) (rid : RefId) (index : Nat) (hashes : List Hash) :
    R RefGen := do
  let list ← expect (g.allocations.get rid) .allocNotFound
  let al ← expect list[index]? .allocNotFound
  let count ← uadd al.count hashes.dedup.length
  require (decide (count ≤ al.maxCount)) .allocLimit
  let codes ← hashes.dedup.foldlM (fun m h => insertCode m h ⟨rid, al.claims, 0, 1⟩) g.codes
  pure { g with codes, allocations := g.allocations.set rid (list.set index { al with count }) }

/-- `claim_referral_code`: referral_generator.rs:236-248 -/
def RefGen.claim (env : Env) (g : RefGen) (h : Hash) : R (RefGen × RefId × List Bucket) := do
  let code ← expect (g.codes.get h) .codeNotFound
  require (decide (code.count < code.maxCount)) .codeClaimed
  let (vaults, bs) ← vaultTakeBatch env .toZero g.vaults code.claims
  pure ({ g with vaults, codes := g.codes.set h { code with count := code.count + 1 } },
        code.referralId, bs)

end Perp
