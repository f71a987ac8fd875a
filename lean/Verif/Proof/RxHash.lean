import Verif.Model.RxHash
import Verif.Spec.RxHash
/-!
The code's Toeplitz loops compute the published Toeplitz hash; header capture invariant.
-/
namespace Corundum.RxHash
open Spec

/-- exclusive-or of the key windows selected by the bits, starting at bit `i` -/
def T (key : Nat) : List Bool → Nat → Nat
  | [], _ => 0
  | b :: bs, i => (if b then (key >>> (288 - i)) % 2 ^ 32 else 0) ^^^ T key bs (i + 1)

theorem T_append (key : Nat) : ∀ (l l' : List Bool) (i : Nat), T key (l ++ l') i = T key l i ^^^ T key l' (i + l.length)
  | [], l', i => by simp [T]
  | b :: bs, l', i => by
    rw [List.cons_append, T, T, T_append key bs l' (i + 1), Nat.xor_assoc, List.length_cons, show i + 1 + bs.length = i + (bs.length + 1) by omega]

theorem window (key i : Nat) (hi : i ≤ 288) : ((key <<< i) % 2 ^ 320) >>> 288 = (key >>> (288 - i)) % 2 ^ 32 := by
  apply Nat.eq_of_testBit_eq
  intro t
  simp only [Nat.testBit_shiftRight, Nat.testBit_mod_two_pow, Nat.testBit_shiftLeft]
  by_cases ht : t < 32
  · simp [ht, show 288 + t < 320 by omega, show i ≤ 288 + t by omega, show 288 + t - i = 288 - i + t by omega]
  · simp [ht, show ¬ 288 + t < 320 by omega]

theorem shl_mod (key i : Nat) : (((key <<< i) % 2 ^ 320) <<< 1) % 2 ^ 320 = (key <<< (i + 1)) % 2 ^ 320 := by
  rw [Nat.shiftLeft_eq, Nat.shiftLeft_eq, Nat.shiftLeft_eq, Nat.mod_mul_mod, Nat.mul_assoc, ← Nat.pow_add]

theorem toep_T (key : Nat) : ∀ (l : List Bool) (h i : Nat), i + l.length ≤ 289 →
    (l.foldl toepBit (h, (key <<< i) % 2 ^ 320)).1 = h ^^^ T key l i
  | [], h, i, _ => by simp [T]
  | b :: bs, h, i, hl => by
    rw [List.length_cons] at hl
    rw [List.foldl_cons, toepBit]
    simp only
    rw [shl_mod, toep_T key bs _ (i + 1) (by omega), T, window key i (by omega)]
    cases b
    · simp
    · simp only [if_true]; rw [Nat.xor_assoc]

theorem toeplitz_T (key : Nat) (l : List Nat) (hk : key < 2 ^ 320) (h : (bits l).length ≤ 289) : toeplitz key l = T key (bits l) 0 := by
  unfold toeplitz
  have := toep_T key (bits l) 0 0 (by omega)
  rw [Nat.shiftLeft_zero, Nat.mod_eq_of_lt hk, Nat.zero_xor] at this
  exact this

theorem bits_length (l : List Nat) : (bits l).length = 8 * l.length := by
  induction l with
  | nil => rfl
  | cons a l ih => rw [bits, List.flatMap_cons, List.length_append, ← bits, ih, List.length_map, List.length_range, List.length_cons]; omega

theorem bits_append (l l' : List Nat) : bits (l ++ l') = bits l ++ bits l' := by simp [bits]

theorem ite_xor (c : Bool) (h x : Nat) : (if c then h ^^^ x else h) = h ^^^ (if c then x else 0) := by cases c <;> simp

theorem bits_one (b : Nat) : bits [b] = [b.testBit 7, b.testBit 6, b.testBit 5, b.testBit 4, b.testBit 3, b.testBit 2, b.testBit 1, b.testBit 0] := rfl

theorem inner_T (key b i h : Nat) :
    (List.range 8).foldl (fun h j => if b.testBit (7 - j) then h ^^^ (key >>> (40 * 8 - 32 - i * 8 - j)) % 2 ^ 32 else h) h
      = h ^^^ T key (bits [b]) (i * 8) := by
  rw [show List.range 8 = [0, 1, 2, 3, 4, 5, 6, 7] by decide, bits_one]
  simp only [List.foldl_cons, List.foldl_nil, ite_xor, T, Nat.xor_assoc, Nat.xor_zero, Nat.reduceMul, Nat.reduceSub, Nat.add_assoc,
    Nat.reduceAdd, Nat.sub_sub, Nat.add_zero]

theorem hashToep_T (data : Nat → Nat) (len key : Nat) : hashToep data len key = T key (bits ((List.range len).map data)) 0 := by
  unfold hashToep
  induction len with
  | zero => rfl
  | succ n ih =>
    rw [List.range_succ (n := n), List.foldl_append, ih, List.foldl_cons, List.foldl_nil, inner_T, List.map_append, bits_append, T_append, bits_length,
      List.length_map, List.length_range, Nat.zero_add, Nat.mul_comm n 8]
    rfl

theorem window2 (key i : Nat) (hi : i ≤ 224) : (((key <<< 64) % 2 ^ 320) >>> (288 - i)) % 2 ^ 32 = (key >>> (288 - (i + 64))) % 2 ^ 32 := by
  apply Nat.eq_of_testBit_eq
  intro t
  rw [Nat.testBit_mod_two_pow, Nat.testBit_mod_two_pow, Nat.testBit_shiftRight, Nat.testBit_shiftRight, Nat.testBit_mod_two_pow,
    Nat.testBit_shiftLeft]
  by_cases ht : t < 32
  · have e : 288 - i + t - 64 = 288 - (i + 64) + t := by omega
    rw [e, decide_eq_true (show 288 - i + t < 320 by omega), decide_eq_true (show 288 - i + t ≥ 64 by omega), Bool.true_and, Bool.true_and]
  · rw [decide_eq_false ht]; simp only [Bool.false_and]

theorem T_shift (key : Nat) (l : List Bool) : ∀ (i : Nat), i + l.length ≤ 225 → T ((key <<< 64) % 2 ^ 320) l i = T key l (i + 64) := by
  generalize hk : (key <<< 64) % 2 ^ 320 = k'
  induction l with
  | nil => intro i _; rfl
  | cons b bs ih =>
    intro i hl
    rw [List.length_cons] at hl
    rw [T, T, ih (i + 1) (by omega), show i + 1 + 64 = i + 64 + 1 by omega, ← hk, window2 key i (by omega)]

/-- the result the pipeline computes from the capture registers -/
def res (key : Nat) (f : Front) : Nat × Nat :=
  (if f.ipv4 then
    (if f.tcp || f.udp then hashToep f.hd 8 key ^^^ hashToep (fun j => f.hd (j + 8)) 4 ((key <<< 64) % 2 ^ 320) else hashToep f.hd 8 key)
   else 0, f.typ)

theorem hash_l3 (hd : Nat → Nat) (key : Nat) (hk : key < 2 ^ 320) : hashToep hd 8 key = toeplitz key ((List.range 8).map hd) := by
  rw [hashToep_T, toeplitz_T key _ hk (by rw [bits_length]; simp)]

theorem hash_l4 (hd : Nat → Nat) (key : Nat) (hk : key < 2 ^ 320) :
    hashToep hd 8 key ^^^ hashToep (fun j => hd (j + 8)) 4 ((key <<< 64) % 2 ^ 320) = toeplitz key ((List.range 12).map hd) := by
  rw [hashToep_T, hashToep_T, T_shift _ _ _ (by rw [bits_length]; simp), toeplitz_T key _ hk (by rw [bits_length]; simp),
    show (List.range 12).map hd = (List.range 8).map hd ++ (List.range 4).map (fun j => hd (j + 8)) from rfl, bits_append, T_append, bits_length]
  simp

/-- results emitted by the capture stage -/
def emits (K key : Nat) : Front → List (Option Beat) → List (Nat × Nat)
  | _, [] => []
  | f, i :: is => (if (f.step K i).valid then [res key (f.step K i)] else []) ++ emits K key (f.step K i) is

def part (s : St) : Nat × Nat := (if s.pIpv4 then (if s.pTcp || s.pUdp then s.ipPart ^^^ s.portPart else s.ipPart) else 0, s.pTyp)

/-- the two pipeline stages only delay: two more cycles flush every result -/
theorem outs_emits (K key : Nat) : ∀ (cs : List (Option Beat)) (s : St),
    outs K key s (cs ++ [none, none]) = (if s.pValid then [part s] else []) ++ ((if s.f.valid then [res key s.f] else []) ++ emits K key s.f cs)
  | [], s => by
    simp only [List.nil_append, outs, emits, List.append_nil, St.step]
    rfl
  | i :: is, s => by
    rw [List.cons_append, outs]
    rw [outs_emits K key is, emits]
    rfl

end Corundum.RxHash
