import Verif.Common.Sort
/-!
# Model: small utilities

* `common/utils/src/bloom_filter.rs`
* `common/utils/src/precision.rs`
* `common/utils/src/bkdr_hash.rs` and its users
* `common/limiter_bucket/src/rate_bucket.rs`
* `common/memory_pool/src/lib.rs`
-/
namespace Verif.Utils

/-! ## Bloom filter -/

/-- `struct BloomFilter` (bloom_filter.rs:10-14). -/
structure Bloom where
  b : List (BitVec 8)
  mask : Nat
deriving DecidableEq

/-- The loop of `pow2` (bloom_filter.rs:86-93); `none` is its panic.  `i` doubles from 8, so at most
60 rounds happen. -/
def pow2Loop : Nat → Nat → Nat → Option Nat
  | 0, _, _ => none
  | fuel + 1, i, num => if i < 2 ^ 62 then if i ≥ num then some i else pow2Loop fuel (i * 2) num else none

/-- `BloomFilter::pow2` (bloom_filter.rs:85-94). -/
def pow2 (num : Nat) : Option Nat := pow2Loop 60 8 num

/-- `BloomFilter::new` (bloom_filter.rs:19-24). -/
def Bloom.new (m : Nat) : Option Bloom :=
  (pow2 m).map fun m => ⟨List.replicate (m / 8) 0#8, m - 1⟩

/-- `BloomFilter::with_data` (bloom_filter.rs:36-45). -/
def Bloom.withData (data : List (BitVec 8)) : Option Bloom :=
  (pow2 data.length).map fun l => ⟨data ++ List.replicate (l - data.length) 0#8, l * 8 - 1⟩

/-- `BloomFilter::location` (bloom_filter.rs:80-82). -/
def Bloom.location (f : Bloom) (hash : Nat) : Nat := hash &&& f.mask

/-- One round of `insert` (bloom_filter.rs:48-53); `none` is an index out of bounds. -/
def Bloom.setBit (f : Bloom) (loc : Nat) : Option Bloom :=
  match f.b[loc / 8]? with
  | some x => some { f with b := f.b.set (loc / 8) (x ||| (1#8 <<< (loc % 8))) }
  | none => none

/-- One round of `maybe_contains` (bloom_filter.rs:57-64). -/
def Bloom.testBit (f : Bloom) (loc : Nat) : Option Bool :=
  (f.b[loc / 8]?).map fun x => decide (x &&& (1#8 <<< (loc % 8)) ≠ 0#8)

variable {δ : Type}

/-- `BloomFilter::insert` (bloom_filter.rs:47-54).  `hs` are the four hash functions, whose values are
arbitrary. -/
def Bloom.insert (hs : List (δ → Nat)) (f : Bloom) (d : δ) : Option Bloom :=
  hs.foldlM (fun f h => f.setBit (f.location (h d))) f

/-- `BloomFilter::maybe_contains` (bloom_filter.rs:56-66). -/
def Bloom.maybeContains : List (δ → Nat) → Bloom → δ → Option Bool
  | [], _, _ => some true
  | h :: hs, f, d =>
    match f.testBit (f.location (h d)) with
    | none => none
    | some false => some false
    | some true => Bloom.maybeContains hs f d

/-! ## Precision -/

/-- `enum Precision` (precision.rs:8-14). -/
inductive Precision where
  | ms | us | ns
deriving DecidableEq

def i64Min : Int := -9223372036854775808
def i64Max : Int := 9223372036854775807

/-- `i64::checked_mul`. -/
def checkedMul (a b : Int) : Option Int :=
  if i64Min ≤ a * b ∧ a * b ≤ i64Max then some (a * b) else none

/-- `timestamp_convert` (precision.rs:65-73).  `/` on `i64` truncates towards zero. -/
def timestampConvert : Precision → Precision → Int → Option Int
  | .ns, .us, ts => some (ts.tdiv 1000)
  | .us, .ms, ts => some (ts.tdiv 1000)
  | .ms, .us, ts => checkedMul ts 1000
  | .us, .ns, ts => checkedMul ts 1000
  | .ns, .ms, ts => some (ts.tdiv 1000000)
  | .ms, .ns, ts => checkedMul ts 1000000
  | _, _, ts => some ts

/-! ## Series hash -/

/-- `BkdrHasher::write` (bkdr_hash.rs:55-59), wrapping in 64 bits. -/
def bkdrWrite (number : BitVec 64) (bytes : List (BitVec 8)) : BitVec 64 :=
  bytes.foldl (fun n c => n * 1313#64 + c.setWidth 64) number

abbrev Bytes := List (BitVec 8)

/-- Feeding key and value of every tag (tag.rs:16-19, series_info.rs:56-59, protocol_parser
lib.rs:94-97). -/
def hashTags (n : BitVec 64) (tags : List (Bytes × Bytes)) : BitVec 64 :=
  tags.foldl (fun n t => bkdrWrite (bkdrWrite n t.1) t.2) n

/-- `SeriesKey::hash` (series_info.rs:53-62), `tags_hash_id` (tag.rs:13-22). -/
def seriesHash (table : Bytes) (tags : List (Bytes × Bytes)) : BitVec 64 :=
  hashTags (bkdrWrite 0 table) tags

/-- Byte-wise comparison of strings. -/
def bytesLe : Bytes → Bytes → Bool
  | [], _ => true
  | _ :: _, [] => false
  | a :: as, b :: bs => if a.toNat < b.toNat then true else if b.toNat < a.toNat then false else bytesLe as bs

/-- `Vec::dedup_by` on equal keys: keeps the first of a run. -/
def dedupKey : List (Bytes × Bytes) → List (Bytes × Bytes)
  | [] => []
  | a :: l => match dedupKey l with
    | [] => [a]
    | b :: r => if a.1 = b.1 then a :: r else a :: b :: r

/-- Hash of a parsed line: `sort_dedup_and_hash` / `init_ordered_hash_id` (protocol_parser
lib.rs:90-102, 120-126). -/
def lineHash (table : Bytes) (tags : List (Bytes × Bytes)) : BitVec 64 :=
  seriesHash table (dedupKey (Sort.sortBy (fun a b => bytesLe a.1 b.1) tags))

/-- Hash of a line from the JSON parser: never computed (json_protocol/parser.rs:554-560). -/
def jsonHash (_table : Bytes) (_tags : List (Bytes × Bytes)) : BitVec 64 := 0

/-- Hash used by the SQL INSERT path (coordinator service.rs:674-714): tag columns in the order of the
record batch; a null tag reads as the empty string. -/
def insertHash (table : Bytes) (cols : List (Bytes × Option Bytes)) : BitVec 64 :=
  hashTags (bkdrWrite 0 table) (cols.map fun c => (c.1, c.2.getD []))

/-- `BucketInfo::vnode_for` (meta_data.rs:81-85): index of the replication set. -/
def vnodeFor (hash : BitVec 64) (shards : Nat) : Nat := hash.toNat % shards

/-! ## Rate bucket

Clock readings and deadlines are nanoseconds. -/

/-- `struct RateBucket` (rate_bucket.rs:12-21); `interval` in milliseconds. -/
structure RateCfg where
  refill : Nat
  interval : Nat
  max : Nat

/-- `struct Critical` (rate_bucket.rs:193-198). -/
structure Critical where
  balance : Nat
  deadline : Int

def usizeMax : Nat := 2 ^ 64 - 1

/-- `calculate_drain` (rate_bucket.rs:378-398).  `signed_duration_since(..).num_milliseconds()`
truncates to whole milliseconds. -/
def calculateDrain (deadline : Int) (interval : Nat) (now : Int) : Option (Nat × Int) :=
  if now < deadline then none
  else
    let since := ((now - deadline).toNat) / 1000000
    some (Nat.min (since / interval + 1) usizeMax,
      now + ((interval : Int) - (since % interval : Nat)) * 1000000)

/-- `update_critical` (rate_bucket.rs:231-240).  `tokens * self.refill` wraps; `saturating_add`. -/
def updateCritical (cfg : RateCfg) (c : Critical) (now : Int) : Critical :=
  match calculateDrain c.deadline cfg.interval now with
  | none => c
  | some (tokens, deadline) =>
    let b := Nat.min (c.balance + tokens * cfg.refill % 2 ^ 64) usizeMax
    ⟨if b > cfg.max then cfg.max else b, deadline⟩

/-- `acquire` (rate_bucket.rs:260-275): the new state and the number of permits granted. -/
def acquire (cfg : RateCfg) (c : Critical) (now : Int) (permits : Nat) : Critical × Nat :=
  if permits = 0 then (c, 0)
  else
    let c := updateCritical cfg c now
    if permits ≤ c.balance then ({ c with balance := c.balance - permits }, permits) else (c, 0)

/-- `acquire_closed` (rate_bucket.rs:242-258). -/
def acquireClosed (cfg : RateCfg) (c : Critical) (now : Int) (permits : Nat) : Critical × Nat :=
  if permits = 0 then (c, 0)
  else
    let c := updateCritical cfg c now
    if c.balance ≥ permits then ({ c with balance := c.balance - permits }, permits)
    else ({ c with balance := 0 }, c.balance)

/-- `RateBucketBuilder::build` (rate_bucket.rs:343-364). -/
def RateCfg.build (max : Option Nat) (initial refill interval : Nat) (now : Int) : RateCfg × Critical :=
  let m := match max with
    | some m => m
    | none => Nat.min (Nat.max refill initial * 10) usizeMax
  (⟨refill, interval, m⟩, ⟨Nat.min initial m, now + (interval : Int) * 1000000⟩)

/-! ## Memory pool -/


/-- `GreedyMemoryPool` (memory_pool/src/lib.rs:16-20) with the sizes of its live
`MemoryReservation`s (DataFusion). -/
structure Pool where
  size : Nat
  used : Nat
  live : List Nat

/-- Operations on the reservation number `i`: `try_grow`, `shrink`, `free`/drop, and registering a
new consumer. -/
inductive PoolOp where
  | register
  | tryGrow (i n : Nat)
  | shrink (i n : Nat)
  | free (i : Nat)

/-- One atomic step.  `try_grow` (lib.rs:47-55): `used + additional` wraps; `word` is the
number of values of a `usize`, 2^64 on the supported targets; only on success
does the reservation grow.  `shrink` (lib.rs:43-45) after DataFusion's `checked_sub(n).unwrap()`; a
panic leaves the state unchanged. -/
def Pool.step (word : Nat) (p : Pool) : PoolOp → Pool
  | .register => { p with live := p.live ++ [0] }
  | .tryGrow i n =>
    match p.live[i]? with
    | none => p
    | some s =>
      let newUsed := (p.used + n) % word
      if newUsed ≤ p.size then { p with used := newUsed, live := p.live.set i (s + n) } else p
  | .shrink i n =>
    match p.live[i]? with
    | none => p
    | some s => if n ≤ s then { p with used := (p.used + word - n) % word, live := p.live.set i (s - n) } else p
  | .free i =>
    match p.live[i]? with
    | none => p
    | some s => { p with used := (p.used + word - s) % word, live := p.live.set i 0 }

end Verif.Utils
