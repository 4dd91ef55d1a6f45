/-!
`base::Histogram` (base/histogram.h, base/histogram.cc). Simplification: `double` is replaced by exact rational numbers, so
rounding, NaN and infinities are not modelled; 64 bit counters wrap as in the code.
-/
namespace Verif.Histogram

/-- `kBucketLimit` (histogram.cc 21-176). -/
def limits : List Nat := [
  1, 2, 3, 4, 5, 6, 7, 8, 9, 10, 12, 14, 16, 18, 20, 25, 30, 35, 40, 45, 50, 60, 70, 80, 90, 100, 120, 140, 160,
  180, 200, 250, 300, 350, 400, 450, 500, 600, 700, 800, 900, 1000, 1200, 1400, 1600, 1800, 2000, 2500, 3000, 3500,
  4000, 4500, 5000, 6000, 7000, 8000, 9000, 10000, 12000, 14000, 16000, 18000, 20000, 25000, 30000, 35000, 40000,
  45000, 50000, 60000, 70000, 80000, 90000, 100000, 120000, 140000, 160000, 180000, 200000, 250000, 300000, 350000,
  400000, 450000, 500000, 600000, 700000, 800000, 900000, 1000000, 1200000, 1400000, 1600000, 1800000, 2000000,
  2500000, 3000000, 3500000, 4000000, 4500000, 5000000, 6000000, 7000000, 8000000, 9000000, 10000000, 12000000,
  14000000, 16000000, 18000000, 20000000, 25000000, 30000000, 35000000, 40000000, 45000000, 50000000, 60000000,
  70000000, 80000000, 90000000, 100000000, 120000000, 140000000, 160000000, 180000000, 200000000, 250000000,
  300000000, 350000000, 400000000, 450000000, 500000000, 600000000, 700000000, 800000000, 900000000, 1000000000,
  1200000000, 1400000000, 1600000000, 1800000000, 2000000000, 2500000000, 3000000000, 3500000000, 4000000000,
  4500000000, 5000000000, 6000000000, 7000000000, 8000000000, 9000000000, 10 ^ 200]

/-- `kNumBuckets` (histogram.h 91). -/
def numBuckets : Nat := 154

def limit (b : Nat) : Rat := (limits.getD b 0 : Nat)

/-- 64 bit wrap-around. -/
def w64 (n : Nat) : Nat := n % 2 ^ 64

/-- The members (histogram.h 86-94). -/
structure H where
  min : Rat
  max : Rat
  sum : Rat
  num : Nat
  buckets : List Nat
  deriving DecidableEq

/-- `Clear` (histogram.cc 195-201), also the constructor (188-190). -/
def clear : H := { min := limit (numBuckets - 1), max := 0, sum := 0, num := 0, buckets := [] }

/-- `upper_bound(kBucketLimit, kBucketLimit + kNumBuckets - 1, value)` (204-205): the first index among the first 153 limits
whose limit is above the value, 153 if there is none. -/
def bucketOf (v : Rat) : Nat := (limits.take (numBuckets - 1)).findIdx fun (l : Nat) => decide (v < (l : Rat))

/-- `vector::resize` to at least `n` elements, filling with zeros. -/
def grow (n : Nat) (l : List Nat) : List Nat := l ++ List.replicate (n - l.length) 0

/-- `Add` (203-220). -/
def H.add (h : H) (v : Rat) (c : Nat) : H :=
  let b := bucketOf v
  let bs := if h.buckets.length ≤ b then grow (b + 1) h.buckets else h.buckets
  { buckets := bs.modify b fun x => w64 (x + c)
    min := if h.min > v then v else h.min
    max := if h.max < v then v else h.max
    num := w64 (h.num + c)
    sum := h.sum + v * (c : Rat) }

/-- The loop of `Merge` (234-236). -/
def addAll : List Nat → List Nat → List Nat
  | x :: xs, y :: ys => w64 (x + y) :: addAll xs ys
  | xs, [] => xs
  | [], _ => []

/-- `Merge` (222-237). -/
def H.merge (h o : H) : H :=
  let bs := if o.buckets.length > h.buckets.length then grow o.buckets.length h.buckets else h.buckets
  { min := if o.min < h.min then o.min else h.min
    max := if o.max > h.max then o.max else h.max
    num := w64 (h.num + o.num)
    sum := h.sum + o.sum
    buckets := addAll bs o.buckets }

/-- `Decay` (299-307). -/
def H.decay (h : H) : H :=
  { h with
    buckets := h.buckets.map (· / 2)
    num := (h.buckets.map (· / 2)).foldl (fun a b => w64 (a + b)) 0
    sum := h.sum / 2 }

/-- `BucketLimits` (178-181). -/
def bucketLimits (b : Nat) : Rat × Rat := (if b = 0 then 0 else limit (b - 1), limit b)

/-- `InterpolateVal` (348-360). -/
def H.interpolate (h : H) (b pos : Nat) : Rat :=
  let l := bucketLimits b
  let p : Rat := (pos : Rat) / ((w64 (h.buckets.getD b 0 + 1) : Nat) : Rat)
  let r := l.1 + (l.2 - l.1) * p
  let r := if r < h.min then h.min else r
  if r > h.max then h.max else r

/-- `threshold` (265). The conversion of a negative product to `uint64_t` is undefined; here it is 0. -/
def H.threshold (h : H) (p : Rat) : Nat := ((h.num : Rat) * (p / 100)).floor.toNat

/-- The inner loop of `PercentilesImpl` (264-275): the results for the percentiles falling into this bucket. -/
def H.serve (h : H) (b sum n : Nat) : List Rat → List Rat × List Rat
  | [] => ([], [])
  | p :: ps =>
    if h.threshold p ≤ sum then
      let r := h.serve b sum n ps
      (h.interpolate b (h.threshold p - (sum - n)) :: r.1, r.2)
    else ([], p :: ps)

/-- The loop of `PercentilesImpl` (260-282), `b` being the index of the first element of the list. -/
def H.scan (h : H) : List Nat → Nat → Nat → List Rat → List Rat
  | [], _, _, ps => ps.map fun _ => h.max
  | n :: bs, b, sum, ps =>
    let sum := w64 (sum + n)
    let r := h.serve b sum n ps
    r.1 ++ h.scan bs (b + 1) sum r.2

/-- `PercentilesImpl` (243-285), for percentiles in ascending order (the DCHECK in 247-249). -/
def H.percentiles (h : H) (ps : List Rat) : List Rat :=
  if h.num = 0 then ps.map fun _ => 0 else h.scan h.buckets 0 0 ps

/-- `Percentile` (239-241). -/
def H.percentile (h : H) (p : Rat) : Rat := (h.percentiles [p]).headD 0

/-- `Average` (293-297). -/
def H.average (h : H) : Rat := if h.num = 0 then 0 else h.sum / (h.num : Rat)

end Verif.Histogram
