/-! Initialisation over I2C: the generator `si5341_i2c_init.py` and the module in its template
(fpga/lib/eth/example/HTG9200/fpga_25g/pll/si5341_i2c_init.py).  Commands are the 9 bit words of the ROM, not their text; comments, which are put
between them in the text, are left out.  The I2C master that takes the commands is not modelled. -/
namespace Corundum.I2cInit

/-! ### the generator -/

/-- a line of the register list file, as the generator tells them apart (pll/si5341_i2c_init.py:18-33); parsing of numbers is not modelled -/
inductive Line where
  | comment
  | delay
  | reg (addr data : Nat)
deriving DecidableEq, Repr

/-- local variables of `si5341_cmds` (pll/si5341_i2c_init.py:10-13) -/
structure Gen where
  page : Option Nat := none
  addr : Option Nat := none
  cmds : List Nat := []
deriving DecidableEq, Repr

/-- `{2'b01, 7'hxx}` -/
def wAddr (a : Nat) : Nat := 128 + a % 128

/-- `{1'b1, 8'hxx}` -/
def wData (b : Nat) : Nat := 256 + b % 256

/-- the page is set if it differs (pll/si5341_i2c_init.py:35-40) -/
def Gen.setPage (dev : Nat) (g : Gen) (addr : Nat) : Gen :=
  let page := addr / 256 % 256
  if g.page ≠ some page then ⟨some page, none, g.cmds ++ [wAddr dev, wData 1, wData page]⟩ else g

/-- the address is sent if it is not the next one (pll/si5341_i2c_init.py:42-45) -/
def Gen.setAddr (dev : Nat) (g : Gen) (addr : Nat) : Gen :=
  if g.addr ≠ some addr then { g with addr := some addr, cmds := g.cmds ++ [wAddr dev, wData (addr % 256)] } else g

/-- body of the loop (pll/si5341_i2c_init.py:18-48) -/
def Gen.line (dev : Nat) (g : Gen) : Line → Gen
  | .comment => g
  | .delay => { g with addr := none, cmds := g.cmds ++ [26] }
  | .reg addr data =>
    let g := (g.setPage dev addr).setAddr dev addr
    { g with cmds := g.cmds ++ [wData data], addr := g.addr.map (· + 1) }

/-- `si5341_cmds` (pll/si5341_i2c_init.py:9-51) -/
def si5341Cmds (dev : Nat) (ls : List Line) : List Nat := (ls.foldl (Gen.line dev) {}).cmds

/-- `mux_cmds` (pll/si5341_i2c_init.py:54-59) -/
def muxCmds (val dev : Nat) : List Nat := [wAddr dev, wData val, 65]

/-- one device in `main`: multiplexers, then registers (pll/si5341_i2c_init.py:68-73) -/
structure Section where
  mux : List (Nat × Nat)
  dev : Nat
  lines : List Line
deriving Repr

/-- the commands of a section -/
def Section.cmds (s : Section) : List Nat := s.mux.flatMap (fun p => muxCmds p.2 p.1) ++ si5341Cmds s.dev s.lines

/-- `main` and `generate`: the contents of the ROM (pll/si5341_i2c_init.py:62-74, :90-100); the other two copies of the script have two
sections -/
def romOf (ss : List Section) : List Nat := 22 :: ss.flatMap Section.cmds ++ [0]

/-! ### the module -/

/-- states (pll/si5341_i2c_init.py:248-253) -/
inductive St where
  | idle | run | table1 | table2 | table3
deriving DecidableEq, Repr

/-- registers (pll/si5341_i2c_init.py:255-281) -/
structure Reg where
  st : St := .idle
  word : Nat := 0
  pc : Nat := 0
  aptr : Nat := 0
  dptr : Nat := 0
  cur : Nat := 0
  delay : Nat := 0
  cAddr : Nat := 0
  cStart : Bool := false
  cWrite : Bool := false
  cStop : Bool := false
  cValid : Bool := false
  data : Nat := 0
  dValid : Bool := false
  flag : Bool := false
  busy : Bool := false
deriving DecidableEq, Repr

/-- inputs of a cycle: `start`, `m_axis_cmd_ready`, `m_axis_data_tready` -/
structure In where
  start : Bool := true
  cReady : Bool := true
  dReady : Bool := true
deriving DecidableEq, Repr

/-- the next address, `AW` bits wide -/
def inc (aw pc : Nat) : Nat := (pc + 1) % 2 ^ aw

/-- write data (pll/si5341_i2c_init.py:339-350, :459-470) -/
def Reg.write (aw : Nat) (k : Reg) : Reg :=
  { k with cWrite := true, cStop := false, cValid := true, data := k.word % 256, dValid := true, pc := inc aw k.pc }

/-- start of a write (pll/si5341_i2c_init.py:351-358, :471-478, :479-486) -/
def Reg.addr (aw : Nat) (k : Reg) (a : Nat) : Reg := { k with cAddr := a, cStart := true, pc := inc aw k.pc }

/-- an I2C stop (pll/si5341_i2c_init.py:366-375) -/
def Reg.stop (k : Reg) : Reg := { k with cWrite := false, cStart := false, cStop := true, cValid := true }

/-- `STATE_RUN` (pll/si5341_i2c_init.py:337-394) -/
def Reg.run (aw : Nat) (k : Reg) : Reg :=
  if k.word / 256 % 2 = 1 then k.write aw
  else if k.word / 128 % 4 = 1 then k.addr aw (k.word % 128)
  else if k.word / 16 % 32 = 1 then { k with delay := 2 ^ (k.word % 16 + 16), pc := inc aw k.pc }
  else if k.word = 65 then { k.stop with pc := inc aw k.pc }
  else if k.word = 9 then { k with dptr := inc aw k.pc, pc := inc aw k.pc, st := .table1 }
  else if k.word = 0 then { k.stop with st := .idle }
  else { k with pc := inc aw k.pc }

/-- `STATE_TABLE_1` (pll/si5341_i2c_init.py:395-424) -/
def Reg.table1 (aw : Nat) (k : Reg) : Reg :=
  if k.word = 8 then { k with aptr := inc aw k.pc, pc := inc aw k.pc, st := .table2 }
  else if k.word = 9 then { k with dptr := inc aw k.pc, pc := inc aw k.pc }
  else if k.word = 1 then { k with pc := inc aw k.pc, st := .run }
  else if k.word = 0 then { k.stop with st := .idle }
  else { k with pc := inc aw k.pc }

/-- `STATE_TABLE_2` (pll/si5341_i2c_init.py:425-456) -/
def Reg.table2 (aw : Nat) (k : Reg) : Reg :=
  if k.word / 128 % 4 = 1 then { k with cur := k.word % 128, aptr := inc aw k.pc, pc := k.dptr, st := .table3 }
  else if k.word = 9 then { k with dptr := inc aw k.pc, pc := inc aw k.pc, st := .table1 }
  else if k.word = 1 then { k with pc := inc aw k.pc, st := .run }
  else if k.word = 0 then { k.stop with st := .idle }
  else { k with pc := inc aw k.pc }

/-- `STATE_TABLE_3` (pll/si5341_i2c_init.py:457-523) -/
def Reg.table3 (aw : Nat) (k : Reg) : Reg :=
  if k.word / 256 % 2 = 1 then k.write aw
  else if k.word / 128 % 4 = 1 then k.addr aw (k.word % 128)
  else if k.word = 3 then k.addr aw k.cur
  else if k.word = 65 then { k.stop with pc := inc aw k.pc }
  else if k.word = 9 then { k with dptr := inc aw k.pc, pc := inc aw k.pc, st := .table1 }
  else if k.word = 8 then { k with pc := k.aptr, st := .table2 }
  else if k.word = 1 then { k with pc := inc aw k.pc, st := .run }
  else if k.word = 0 then { k.stop with st := .idle }
  else { k with pc := inc aw k.pc }

/-- the case statement (pll/si5341_i2c_init.py:326-524) -/
def Reg.exec (aw : Nat) (k : Reg) (start : Bool) : Reg :=
  match k.st with
  | .idle => if !k.flag && start then { k with pc := 0, flag := true, st := .run } else k
  | .run => k.run aw
  | .table1 => k.table1 aw
  | .table2 => k.table2 aw
  | .table3 => k.table3 aw

/-- one clock edge without reset (pll/si5341_i2c_init.py:296-553) -/
def Reg.tick (rom : List Nat) (aw : Nat) (k : Reg) (i : In) : Reg :=
  let n :=
    if k.cValid || k.dValid then
      let took := k.cValid && i.cReady
      { k with cStart := k.cStart && !took, cWrite := k.cWrite && !took, cStop := k.cStop && !took, cValid := k.cValid && !i.cReady,
               dValid := k.dValid && !i.dReady }
    else if k.delay ≠ 0 then { k with delay := k.delay - 1 }
    else k.exec aw i.start
  { n with word := rom.getD n.pc 0, flag := i.start && n.flag, busy := k.st != .idle }

/-- what goes over the command channel (pll/si5341_i2c_init.py:283-289) -/
structure Cmd where
  addr : Nat
  start : Bool
  write : Bool
  stop : Bool
deriving DecidableEq, Repr

/-- the command taken in a cycle -/
def Reg.cmdOut (k : Reg) (i : In) : List Cmd := if k.cValid && i.cReady then [⟨k.cAddr, k.cStart, k.cWrite, k.cStop⟩] else []

/-- the byte taken in a cycle -/
def Reg.dataOut (k : Reg) (i : In) : List Nat := if k.dValid && i.dReady then [k.data] else []

/-- `$clog2(INIT_DATA_LEN)` (pll/si5341_i2c_init.py:257) -/
def awOf (rom : List Nat) : Nat := if rom.length ≤ 1 then 0 else Nat.log2 (rom.length - 1) + 1

end Corundum.I2cInit
