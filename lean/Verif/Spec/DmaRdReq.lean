import Verif.Model.DmaRdReq

/-! What a PCIe read request asks for and what its completions use up, from the PCIe specification. -/
namespace Corundum.DmaRd

/-- length in dwords: the field 0 means 1024 -/
def Req.dwords (t : Req) : Nat := if t.len = 0 then 1024 else t.len

/-- the byte enables of dword `k` -/
def Req.be (t : Req) (k : Nat) : Nat := if k = 0 then t.fbe else if k = t.dwords - 1 then t.lbe else 15

/-- the bytes asked for, in order -/
def Req.bytes (t : Req) : List Nat := ((List.range (t.dwords * 4)).filter fun o => (t.be (o / 4)).testBit (o % 4)).map (t.dwAddr * 4 + ·)

/-- a request as it must be: within the maximum, and not crossing a page -/
structure Req.Ok (c : Cfg) (t : Req) : Prop where
  max : t.dwords * 4 ≤ 128 * 2 ^ min c.mrrs 5
  page : t.dwAddr * 4 % 4096 + t.dwords * 4 ≤ 4096

/-- a way to answer a request with several completions, given by their lengths in dwords: none empty, cut at multiples of `b` bytes only -/
structure Req.Split (t : Req) (b : Nat) (ps : List Nat) : Prop where
  pos : ∀ p ∈ ps, 0 < p
  sum : ps.sum = t.dwords
  cut : ∀ k, 0 < k → k < ps.length → (t.dwAddr + (ps.take k).sum) * 4 % b = 0

/-- data credits used: one for every 16 bytes or part of it, for each completion -/
def dataCredits (ps : List Nat) : Nat := (ps.map fun p => (p + 3) / 4).sum

/-- the read completion boundary -/
def Cfg.boundary (c : Cfg) : Nat := if c.rcb then 128 else 64

/-- an operation the interface can be given: it fits the length field and the address space -/
structure Given (c : Cfg) (addr len : Nat) : Prop where
  wide : 12 ≤ c.paw
  fits : len < 2 ^ c.lw
  space : addr + len ≤ 2 ^ c.paw
  inside : addr < 2 ^ c.paw

/-- the length plus the offset in the first dword does not overflow the comparison with the maximum request size -/
def NoWrap (c : Cfg) (addr len : Nat) : Prop := len + addr % 4 < 2 ^ max c.lw 13

instance (c : Cfg) (addr len : Nat) : Decidable (NoWrap c addr len) := inferInstanceAs (Decidable (_ < _))

/-- with requests of up to 4096 bytes: at least a page, up to the end of a page -/
def PageEnd (c : Cfg) (addr len : Nat) : Prop := 5 ≤ c.mrrs ∧ 4096 ≤ len ∧ (addr + len) % 4096 = 0

end Corundum.DmaRd
