/-!
Time arithmetic of the user-space tools: /repo/utils/timespec.c.

Simplification: `tv_sec` and `tv_nsec` are unbounded integers (64-bit overflow is not modelled, except that the shift loop of `timespec_mod`
stops at `LONG_MAX >> 1` as in the code). `while` loops carry a fuel argument; the proofs show that the loop condition is
false when they stop. Conversions from and to floating point are not modelled.
-/
namespace Corundum.Timespec

structure TS where
  sec : Int
  nsec : Int
  deriving DecidableEq, Repr

/-- timespec.c:64 -/
abbrev G : Int := 1000000000

/-- timespec.c:334-338 -/
def upLoop : Nat → TS → TS
  | 0, t => t
  | f + 1, t => if t.nsec ≥ G then upLoop f ⟨t.sec + 1, t.nsec - G⟩ else t

/-- timespec.c:340-344 -/
def downLoop : Nat → TS → TS
  | 0, t => t
  | f + 1, t => if t.nsec ≤ -G then downLoop f ⟨t.sec - 1, t.nsec + G⟩ else t

/-- timespec_normalise, timespec.c:332-367 -/
def normalise (t : TS) : TS :=
  let t := upLoop (t.nsec.natAbs / 1000000000 + 1) t
  let t := downLoop (t.nsec.natAbs / 1000000000 + 1) t
  if t.nsec < 0 ∧ t.sec > 0 then ⟨t.sec - 1, G - (-1 * t.nsec)⟩
  else if t.nsec > 0 ∧ t.sec < 0 then ⟨t.sec + 1, -G - (-1 * t.nsec)⟩
  else t

/-- timespec.c:69-81 -/
def add (a b : TS) : TS :=
  let a := normalise a
  let b := normalise b
  normalise ⟨a.sec + b.sec, a.nsec + b.nsec⟩

/-- timespec.c:86-98 -/
def sub (a b : TS) : TS :=
  let a := normalise a
  let b := normalise b
  normalise ⟨a.sec - b.sec, a.nsec - b.nsec⟩

/-- timespec.c:194-229 -/
def eq (a b : TS) : Bool := a.sec == b.sec && a.nsec == b.nsec
def gt (a b : TS) : Bool := decide (a.sec > b.sec) || (a.sec == b.sec && decide (a.nsec > b.nsec))
def ge (a b : TS) : Bool := decide (a.sec > b.sec) || (a.sec == b.sec && decide (a.nsec ≥ b.nsec))
def lt (a b : TS) : Bool := decide (a.sec < b.sec) || (a.sec == b.sec && decide (a.nsec < b.nsec))
def le (a b : TS) : Bool := decide (a.sec < b.sec) || (a.sec == b.sec && decide (a.nsec ≤ b.nsec))

/-- `LONG_MAX >> 1` -/
abbrev HALF : Int := 4611686018427387903

/-- body of the shift loop, timespec.c:142-149 -/
def double (b : TS) : TS :=
  let n := b.nsec * 2
  let s := b.sec * 2
  if n > G then ⟨s + 1, n - G⟩ else ⟨s, n⟩

/-- timespec.c:140-150 -/
def shiftLoop : Nat → TS → TS → Nat → TS × Nat
  | 0, _, b, i => (b, i)
  | f + 1, a, b, i => if b.sec < HALF ∧ ge a b = true then shiftLoop f a (double b) (i + 1) else (b, i)

/-- timespec.c:166-173 -/
def halve (b : TS) : TS := ⟨b.sec / 2, (if b.sec % 2 = 1 then b.nsec + G else b.nsec) / 2⟩

/-- timespec.c:154-174 -/
def subLoop : Nat → TS → TS → TS × TS
  | 0, a, b => (if ge a b then sub a b else a, b)
  | i + 1, a, b => subLoop i (if ge a b then sub a b else a) (halve b)

def neg (t : TS) : TS := ⟨-t.sec, -t.nsec⟩
def isNeg (t : TS) : Bool := decide (t.sec < 0) || decide (t.nsec < 0)

/-- timespec_mod, timespec.c:103-192 -/
def mod (a b : TS) : TS :=
  let a := normalise a
  let b := normalise b
  if b.sec = 0 ∧ b.nsec = 0 then a else
  let n1 := isNeg a
  let a := if n1 then neg a else a
  let n2 := isNeg b
  let b := if n2 then neg b else b
  let (b, i) := shiftLoop (Nat.log2 (a.sec * G + a.nsec).toNat + 2) a b 0
  let (a, b) := subLoop i a b
  let a := if (n1 ^^ n2) && (a.sec != 0 || a.nsec != 0) then sub a b else a
  if n1 then neg a else a

/-- timespec.c:277-285; C division truncates -/
def fromMs (ms : Int) : TS := normalise ⟨ms.tdiv 1000, ms.tmod 1000 * 1000000⟩
/-- timespec.c:290-293 -/
def toMs (t : TS) : Int := t.sec * 1000 + t.nsec.tdiv 1000000
/-- timespec.c:250-258 -/
def fromTimeval (sec usec : Int) : TS := normalise ⟨sec, usec * 1000⟩
/-- timespec.c:263-272 -/
def toTimeval (t : TS) : Int × Int := let t := normalise t; (t.sec, t.nsec.tdiv 1000)

end Corundum.Timespec
