/-!
Keccak-256 as the EVM has it (padding 0x01), for one block: enough for the texts of function signatures, whose first four bytes select the
function of a contract. It is no code of the repository; the examples check it against known values.
-/
namespace Verif.Keccak

/-- A lane has 64 bits. -/
def mask : Nat := 2 ^ 64 - 1

/-- Rotation of a lane to the left. -/
def rot (x n : Nat) : Nat := ((x <<< n) ||| (x >>> (64 - n))) &&& mask

/-- The rotations of the rho step, by `x + 5 * y`. -/
def rho : List Nat := [0, 1, 62, 28, 27, 36, 44, 6, 55, 20, 3, 10, 43, 25, 39, 41, 45, 15, 21, 8, 18, 2, 61, 56, 14]

/-- The constants of the iota step. -/
def rc : List Nat := [0x0000000000000001, 0x0000000000008082, 0x800000000000808A, 0x8000000080008000, 0x000000000000808B, 0x0000000080000001,
  0x8000000080008081, 0x8000000000008009, 0x000000000000008A, 0x0000000000000088, 0x0000000080008009, 0x000000008000000A, 0x000000008000808B,
  0x800000000000008B, 0x8000000000008089, 0x8000000000008003, 0x8000000000008002, 0x8000000000000080, 0x000000000000800A, 0x800000008000000A,
  0x8000000080008081, 0x8000000000008080, 0x0000000080000001, 0x8000000080008008]

def lane (a : List Nat) (i : Nat) : Nat := a.getD i 0

/-- One round. -/
def round (a : List Nat) (k : Nat) : List Nat :=
  let c := (List.range 5).map fun x => lane a x ^^^ lane a (x + 5) ^^^ lane a (x + 10) ^^^ lane a (x + 15) ^^^ lane a (x + 20)
  let d := (List.range 5).map fun x => lane c ((x + 4) % 5) ^^^ rot (lane c ((x + 1) % 5)) 1
  let t := (List.range 25).map fun i => rot (lane a i ^^^ lane d (i % 5)) (rho.getD i 0)
  let b := (List.range 25).map fun i => lane t ((i % 5 + 3 * (i / 5)) % 5 + 5 * (i % 5))
  let e := (List.range 25).map fun i =>
    lane b i ^^^ ((mask ^^^ lane b ((i % 5 + 1) % 5 + 5 * (i / 5))) &&& lane b ((i % 5 + 2) % 5 + 5 * (i / 5)))
  match e with
  | [] => []
  | h :: l => (h ^^^ k) :: l

/-- The block of a text of at most 135 bytes. -/
def pad (m : List Nat) : List Nat :=
  let z := m ++ [1] ++ List.replicate (135 - m.length) 0
  z.take 135 ++ [z.getD 135 0 ||| 0x80]

/-- The lanes of a block, with the low byte first, and 8 lanes of zero. -/
def lanes (b : List Nat) : List Nat := (List.range 25).map fun i => (List.range 8).foldr (fun k a => a * 256 + b.getD (8 * i + k) 0) 0

/-- The first four bytes of the hash of a text: the selector of a signature. -/
def selector (s : List Char) : Nat :=
  let h := lane (rc.foldl round (lanes (pad (s.map Char.toNat)))) 0
  (h % 256) * 2 ^ 24 + (h / 256 % 256) * 2 ^ 16 + (h / 65536 % 256) * 2 ^ 8 + h / 16777216 % 256

/-! ### Known values -/

example : selector [] = 0xc5d24601 := by decide +kernel
example : selector "transfer(address,uint256)".toList = 0xa9059cbb := by decide +kernel
example : selector "balanceOf(address)".toList = 0x70a08231 := by decide +kernel

end Verif.Keccak
