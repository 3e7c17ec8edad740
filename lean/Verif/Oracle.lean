import Verif.Config

/-!
# Oracle and VirtualOracle

oracle/src/oracle.rs and exchange/src/exchange/virtual_oracle.rs
-/

namespace Perp

/-- A signed price message: the SBOR-decoded price vector, the BLS signature and the key id.
oracle.rs:103 takes the raw bytes; decoding is not modelled (the message *is* its price list). -/
structure PriceUpdate where
  prices : List Price
  sig : Nat
  keyId : Nat
deriving DecidableEq, Repr

/-- Body of the loop oracle.rs:113-121 -/
def Oracle.pushOne (m : AMap PairId (Dec × Int)) (p : Price) : AMap PairId (Dec × Int) :=
  match m.get p.pair with
  | some old => if p.timestamp > old.2 then m.set p.pair (p.quote, p.timestamp) else m
  | none => m.set p.pair (p.quote, p.timestamp)

/-- First half of `_push_and_get_prices`: oracle.rs:103-121 -/
def Oracle.push (env : Env) (o : Oracle) (u : PriceUpdate) : R Oracle := do
  let key ← expect (o.keys.get u.keyId) .badKey
  require (env.verify u.prices key u.sig) .badSignature
  pure { o with prices := u.prices.foldl Oracle.pushOne o.prices }

/-- `_get_prices`: oracle.rs:126-131 -/
def Oracle.getPrices (o : Oracle) (ids : List PairId) : R (AMap PairId (Dec × Int)) :=
  AMap.buildM (fun p => expect (o.prices.get p) .missingPair) ids

/-- `add_key`: oracle.rs:70-77 -/
def Oracle.addKey (o : Oracle) (id key : Nat) : R Oracle := do
  require (!o.keys.has id) .keyExists
  pure { o with keys := o.keys.set id key }

/-- `remove_key`: oracle.rs:79-81 -/
def Oracle.removeKey (o : Oracle) (id : Nat) : Oracle := { o with keys := o.keys.erase id }

/-- `remove_price`: oracle.rs:83-85 -/
def Oracle.removePrice (o : Oracle) (p : PairId) : Oracle := { o with prices := o.prices.erase p }

/-- virtual_oracle.rs:6-9 -/
structure VOracle where
  prices : AMap PairId Dec
  resMap : AMap Res PairId

/-- Body of the loop virtual_oracle.rs:13-19: the smaller of the two ages wins. -/
def mergeFeed (feeds : AMap PairId Int) (e : Res × CollateralConfig) : AMap PairId Int :=
  match feeds.get e.2.pairId with
  | some age => if e.2.priceAgeMax < age then feeds.set e.2.pairId e.2.priceAgeMax else feeds
  | none => feeds.set e.2.pairId e.2.priceAgeMax

/-- virtual_oracle.rs:13-19 over `config.collateral_feeds()` (virtual_config.rs:43-45) -/
def mergeFeeds (feeds : AMap PairId Int) (colls : AMap Res CollateralConfig) : AMap PairId Int :=
  colls.entries.foldl mergeFeed feeds

/-- The checks on one price: virtual_oracle.rs:29-42 -/
def checkPrice (now : Int) (feeds : AMap PairId Int) (prices : AMap PairId (Dec × Int)) (p : PairId) :
    R Dec := do
  let x ← expect (prices.get p) .invalidPrice
  let age ← expect (feeds.get p) .invalidPrice
  let minTimestamp ← addSeconds now (-age)
  require (decide (x.2 > minTimestamp)) .priceTooOld
  require (decide (0 < x.1)) .invalidPrice
  pure x.1

/-- The oracle after the optional push: virtual_oracle.rs:22-26 -/
def Oracle.maybePush (env : Env) (o : Oracle) (updates : Option PriceUpdate) : R Oracle :=
  match updates with
  | some u => o.push env u
  | none => pure o

/-- `VirtualOracle::new`: virtual_oracle.rs:12-49.  Also returns the oracle component, which a push
has updated. -/
def VOracle.new (env : Env) (now : Int) (o : Oracle) (colls : AMap Res CollateralConfig)
    (pairFeeds : AMap PairId Int) (updates : Option PriceUpdate) : R (Oracle × VOracle) := do
  let feeds := mergeFeeds pairFeeds colls
  let o ← o.maybePush env updates
  let raw ← o.getPrices feeds.keys
  let prices ← AMap.buildM (checkPrice now feeds raw) feeds.keys
  pure (o, { prices, resMap := colls.mapV (fun _ c => c.pairId) })

/-- `VirtualOracle::price`: virtual_oracle.rs:51-53 -/
def VOracle.price (o : VOracle) (p : PairId) : R Dec := expect (o.prices.get p) .missingPrice

/-- `VirtualOracle::price_resource`: virtual_oracle.rs:55-58 -/
def VOracle.priceResource (o : VOracle) (r : Res) : R Dec := do
  let p ← expect (o.resMap.get r) .missingFeed
  o.price p

end Perp
