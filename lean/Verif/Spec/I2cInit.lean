import Verif.Model.I2cInit

/-! What initialisation over I2C is for. -/
namespace Corundum.I2cInit

/-! ### operations on the bus -/

/-- what happens on the I2C bus -/
inductive Op where
  | start (a : Nat)
  | byte (b : Nat)
  | stop
deriving DecidableEq, Repr

/-- what the I2C master makes of commands and bytes -/
def bus : List Cmd → List Nat → List Op
  | [], _ => []
  | c :: cs, bs =>
    if c.write then
      match bs with
      | [] => []
      | b :: bs => (if c.start then [.start c.addr] else []) ++ .byte b :: bus cs bs
    else (if c.stop then [.stop] else []) ++ bus cs bs

/-- a start is put on the bus with the first byte only: starts without bytes are left out -/
def squash : List Op → List Op
  | [] => []
  | .start a :: .byte b :: os => .start a :: .byte b :: squash os
  | .start _ :: os => squash os
  | o :: os => o :: squash os

/-- commands of a data block, in the words of the documentation (pll/si5341_i2c_init.py:199-209) -/
inductive BCmd where
  | cur
  | addr (a : Nat)
  | data (b : Nat)
  | stop
deriving DecidableEq, Repr

/-- commands outside of blocks, and blocks: each data block with its address block -/
inductive Item where
  | addr (a : Nat)
  | data (b : Nat)
  | stop
  | delay (d : Nat)
  | blocks (bs : List (List BCmd × List Nat))
deriving Repr

def BCmd.code : BCmd → Nat
  | .cur => 3
  | .addr a => 128 + a
  | .data b => 256 + b
  | .stop => 65

def BCmd.Ok : BCmd → Prop
  | .addr a => a < 128
  | .data b => b < 256
  | _ => True

/-- 9: start data block, 8: start address block -/
def blockCode (b : List BCmd × List Nat) : List Nat := 9 :: b.1.map BCmd.code ++ 8 :: b.2.map (128 + ·)

/-- 1: exit multiple device mode -/
def Item.code : Item → List Nat
  | .addr a => [128 + a]
  | .data b => [256 + b]
  | .stop => [65]
  | .delay d => [16 + d]
  | .blocks bs => bs.flatMap blockCode ++ [1]

def Item.Ok : Item → Prop
  | .addr a => a < 128
  | .data b => b < 256
  | .stop => True
  | .delay d => d < 16
  | .blocks bs => ∀ b ∈ bs, (∀ c ∈ b.1, c.Ok) ∧ ∀ a ∈ b.2, a < 128

/-- what a command of a data block stands for when it is the turn of address `a` -/
def BCmd.ops (a : Nat) : BCmd → Op
  | .cur => .start a
  | .addr x => .start x
  | .data b => .byte b
  | .stop => .stop

/-- a data block is done for each of the addresses -/
def blockOps (b : List BCmd × List Nat) : List Op := b.2.flatMap (fun a => b.1.map (BCmd.ops a))

def Item.ops : Item → List Op
  | .addr a => [.start a]
  | .data b => [.byte b]
  | .stop => [.stop]
  | .delay _ => []
  | .blocks bs => bs.flatMap blockOps

/-- a program; blocks at the end need no exit -/
def code (is : List Item) (last : List (List BCmd × List Nat)) : List Nat := is.flatMap Item.code ++ last.flatMap blockCode ++ [0]

/-- what is to be seen on the bus, the end being a stop -/
def want (is : List Item) (last : List (List BCmd × List Nat)) : List Op := squash (is.flatMap Item.ops ++ last.flatMap blockOps ++ [.stop])

/-! ### runs -/

/-- registers, and what was taken before cycle `n` -/
def at' (rom : List Nat) (ins : Nat → In) : Nat → Reg × List Cmd × List Nat
  | 0 => ({}, [], [])
  | n + 1 =>
    let s := at' rom ins n
    (s.1.tick rom (awOf rom) (ins n), s.2.1 ++ s.1.cmdOut (ins n), s.2.2 ++ s.1.dataOut (ins n))

/-- registers after `n` cycles from any state -/
def from' (rom : List Nat) (k : Reg) (ins : Nat → In) : Nat → Reg
  | 0 => k
  | n + 1 => (from' rom k ins n).tick rom (awOf rom) (ins n)

/-- the master takes what is offered now and again -/
def Fair (ins : Nat → In) : Prop := (∀ n, (ins n).start = true) ∧ (∀ n, ∃ m, n ≤ m ∧ (ins m).cReady = true) ∧ ∀ n, ∃ m, n ≤ m ∧ (ins m).dReady = true

/-! ### the device -/

/-- a clock generator on the bus, behind multiplexers: register addresses have a page and a byte, byte 1 of every page is the page register, the
first byte after a start is the address of the second, addresses count up (Si5341 data sheet).  `tgt`: the address after the last start; `got`: a first byte came;
`mux`: what the multiplexers are set to, which changes with a stop. -/
structure World where
  mux : Nat → Nat
  pend : Nat → Nat
  tgt : Option Nat
  sel : Bool
  got : Bool
  page : Nat
  ptr : Nat
  log : List (Nat × Nat)

/-- `A`: its address; `vis`: whether it is connected -/
def World.op (A : Nat) (vis : (Nat → Nat) → Bool) (w : World) : Op → World
  | .start a => let w := { w with tgt := some a }
    if vis w.mux then { w with sel := a == A, got := false } else w
  | .byte b =>
    let w := match w.tgt with
      | some a => if a = A then w else { w with pend := fun x => if x = a then b else w.pend x }
      | none => w
    if vis w.mux && w.sel then
      if !w.got then { w with got := true, ptr := b }
      else if w.ptr = 1 then { w with page := b, ptr := 2 }
      else { w with log := w.log ++ [(w.page * 256 + w.ptr, b)], ptr := (w.ptr + 1) % 256 }
    else w
  | .stop => { w with mux := w.pend, tgt := none, sel := if vis w.mux then false else w.sel }

/-- registers listed in a file -/
def regs : List Line → List (Nat × Nat)
  | [] => []
  | .reg a d :: ls => (a, d) :: regs ls
  | _ :: ls => regs ls

/-- multiplexers after a section -/
def setMux (m : Nat → Nat) : List (Nat × Nat) → Nat → Nat
  | [] => m
  | (a, v) :: ps => setMux (fun x => if x = a then v else m x) ps

/-- the registers meant for the device: those of the sections in which it is connected -/
def meant (vis : (Nat → Nat) → Bool) : (Nat → Nat) → List Section → List (Nat × Nat)
  | _, [] => []
  | m, s :: ss => (if vis (setMux m s.mux) then regs s.lines else []) ++ meant vis (setMux m s.mux) ss

/-- a proper section for device address `A`: registers of 16 bits but for the page registers, bytes, multiplexers with other addresses -/
def Section.Ok (A : Nat) (s : Section) : Prop :=
  s.dev = A ∧ (∀ p ∈ s.mux, p.1 < 128 ∧ p.1 ≠ A ∧ p.2 < 256) ∧ ∀ p ∈ regs s.lines, p.1 < 65536 ∧ p.1 % 256 ≠ 1 ∧ p.2 < 256

end Corundum.I2cInit
