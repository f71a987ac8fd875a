/-!
Driver of the LED shift register: fpga/common/rtl/led_sreg_driver.v, for any number `n` of LEDs. The synchroniser and the clock prescaler are
left out: `leds` is `led_sync_reg_2` and `en` is `enable_reg`, any value in any cycle. `count_reg` is a number; it does not exceed `n`. Runs start from
the state after reset and have no reset in them.
-/
namespace Corundum.LedSreg

/-- registers, lines 61-74 -/
structure St (n : Nat) where
  count : Nat
  update : Bool
  cycle : Bool
  led : BitVec n
  d : Bool
  ld : Bool
  clk : Bool

/-- after reset, lines 146-156 -/
def St.init (n : Nat) : St n := ⟨0, true, false, 0, false, false, false⟩

/-- inputs in a cycle -/
structure In (n : Nat) where
  en : Bool
  leds : BitVec n

variable {n : Nat}

/-- the LED sent as number `k`; `rev` is `REVERSE` -/
def bit (rev : Bool) (led : BitVec n) (k : Nat) : Bool := if rev then led.getLsbD (n - 1 - k) else led.getLsbD k

/-- lines 101-139 -/
def tick (rev : Bool) (s : St n) : St n :=
  if s.cycle then { s with cycle := false, clk := true }
  else if s.count ≠ 0 then
    if s.count < n then { s with clk := false, ld := false, count := s.count + 1, cycle := true, d := bit rev s.led s.count }
    else { s with clk := false, count := 0, cycle := false, d := false, ld := true }
  else if s.update then { s with clk := false, ld := false, update := false, count := 1, cycle := true, d := bit rev s.led 0 }
  else { s with clk := false, ld := false }

/-- one clock edge, lines 101-144; a change of the LEDs is stored last -/
def step (rev : Bool) (s : St n) (i : In n) : St n :=
  let t := if i.en then tick rev s else s
  if i.leds ≠ s.led then { t with led := i.leds, update := true } else t

/-- the shift register on the board: all bits it has got, the latest last, and the `n` bits it shows -/
structure Ext where
  chain : List Bool
  shown : List Bool

/-- the last `n` of a list -/
def lastN (n : Nat) (l : List Bool) : List Bool := l.drop (l.length - n)

/-- the board takes `sreg_d` (line 76, `inv` is `INVERT`) at a rising edge of `sreg_clk`, and shows what it has at a rising edge of `sreg_ld` -/
def ext (n : Nat) (inv : Bool) (e : Ext) (s t : St n) : Ext :=
  let c := if !s.clk && t.clk then e.chain ++ [t.d ^^ inv] else e.chain
  ⟨c, if !s.ld && t.ld then lastN n c else e.shown⟩

/-- driver and board after a run -/
def run (rev inv : Bool) (x : St n × Ext) (is : List (In n)) : St n × Ext :=
  is.foldl (fun x i => (step rev x.1 i, ext n inv x.2 x.1 (step rev x.1 i))) x

end Corundum.LedSreg
