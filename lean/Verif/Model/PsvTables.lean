import Verif.Base

/-!
# Tables of lib/primesieve

Line references are to files below /repo/lib/primesieve.
-/

namespace PS
namespace Psv

/-- A byte of the sieve array (`uint8_t`). -/
abbrev Byte := BitVec 8

/-! include/primesieve/bits.hpp:14-24 -/

def bit0 : Byte := 0xfe
def bit1 : Byte := 0xfd
def bit2 : Byte := 0xfb
def bit3 : Byte := 0xf7
def bit4 : Byte := 0xef
def bit5 : Byte := 0xdf
def bit6 : Byte := 0xbf
def bit7 : Byte := 0x7f

/-- src/LookupTables.cpp:28-38 -/
def bitValues : Vec ℕ := ⟨#[
    7, 11, 13, 17, 19, 23, 29, 31, 37, 41, 43, 47, 49, 53, 59, 61, 67, 71, 73, 77, 79, 83, 89, 91, 97, 101,
    103, 107, 109, 113, 119, 121, 127, 131, 133, 137, 139, 143, 149, 151, 157, 161, 163, 167, 169, 173, 179,
    181, 187, 191, 193, 197, 199, 203, 209, 211, 217, 221, 223, 227, 229, 233, 239, 241]⟩

/-- src/LookupTables.cpp:46-56 -/
def bruijnBitValues : Vec ℕ := ⟨#[
    7, 47, 11, 49, 67, 113, 13, 53, 89, 71, 161, 101, 119, 187, 17, 233, 59, 79, 91, 73, 133, 139, 163, 103,
    149, 121, 203, 169, 191, 217, 19, 239, 43, 61, 109, 83, 157, 97, 181, 229, 77, 131, 137, 143, 199, 167,
    211, 41, 107, 151, 179, 227, 127, 197, 209, 37, 173, 223, 193, 31, 221, 29, 23, 241]⟩

/-- src/LookupTables.cpp:61-67: pairs (`nextMultipleFactor`, `wheelIndex`). -/
def wheel30Init : Vec (ℕ × ℕ) := ⟨#[
    (1, 0), (0, 0), (5, 1), (4, 1), (3, 1), (2, 1), (1, 1), (0, 1), (3, 2), (2, 2), (1, 2), (0, 2), (1, 3),
    (0, 3), (3, 4), (2, 4), (1, 4), (0, 4), (1, 5), (0, 5), (3, 6), (2, 6), (1, 6), (0, 6), (5, 7), (4, 7),
    (3, 7), (2, 7), (1, 7), (0, 7)]⟩

/-- src/LookupTables.cpp:72-101: pairs (`nextMultipleFactor`, `wheelIndex`). -/
def wheel210Init : Vec (ℕ × ℕ) := ⟨#[
    (1, 0), (0, 0), (9, 1), (8, 1), (7, 1), (6, 1), (5, 1), (4, 1), (3, 1), (2, 1), (1, 1), (0, 1), (1, 2),
    (0, 2), (3, 3), (2, 3), (1, 3), (0, 3), (1, 4), (0, 4), (3, 5), (2, 5), (1, 5), (0, 5), (5, 6), (4, 6),
    (3, 6), (2, 6), (1, 6), (0, 6), (1, 7), (0, 7), (5, 8), (4, 8), (3, 8), (2, 8), (1, 8), (0, 8), (3, 9),
    (2, 9), (1, 9), (0, 9), (1, 10), (0, 10), (3, 11), (2, 11), (1, 11), (0, 11), (5, 12), (4, 12), (3, 12),
    (2, 12), (1, 12), (0, 12), (5, 13), (4, 13), (3, 13), (2, 13), (1, 13), (0, 13), (1, 14), (0, 14),
    (5, 15), (4, 15), (3, 15), (2, 15), (1, 15), (0, 15), (3, 16), (2, 16), (1, 16), (0, 16), (1, 17),
    (0, 17), (5, 18), (4, 18), (3, 18), (2, 18), (1, 18), (0, 18), (3, 19), (2, 19), (1, 19), (0, 19),
    (5, 20), (4, 20), (3, 20), (2, 20), (1, 20), (0, 20), (7, 21), (6, 21), (5, 21), (4, 21), (3, 21),
    (2, 21), (1, 21), (0, 21), (3, 22), (2, 22), (1, 22), (0, 22), (1, 23), (0, 23), (3, 24), (2, 24),
    (1, 24), (0, 24), (1, 25), (0, 25), (3, 26), (2, 26), (1, 26), (0, 26), (7, 27), (6, 27), (5, 27),
    (4, 27), (3, 27), (2, 27), (1, 27), (0, 27), (5, 28), (4, 28), (3, 28), (2, 28), (1, 28), (0, 28),
    (3, 29), (2, 29), (1, 29), (0, 29), (5, 30), (4, 30), (3, 30), (2, 30), (1, 30), (0, 30), (1, 31),
    (0, 31), (3, 32), (2, 32), (1, 32), (0, 32), (5, 33), (4, 33), (3, 33), (2, 33), (1, 33), (0, 33),
    (1, 34), (0, 34), (5, 35), (4, 35), (3, 35), (2, 35), (1, 35), (0, 35), (5, 36), (4, 36), (3, 36),
    (2, 36), (1, 36), (0, 36), (3, 37), (2, 37), (1, 37), (0, 37), (1, 38), (0, 38), (3, 39), (2, 39),
    (1, 39), (0, 39), (5, 40), (4, 40), (3, 40), (2, 40), (1, 40), (0, 40), (1, 41), (0, 41), (5, 42),
    (4, 42), (3, 42), (2, 42), (1, 42), (0, 42), (3, 43), (2, 43), (1, 43), (0, 43), (1, 44), (0, 44),
    (3, 45), (2, 45), (1, 45), (0, 45), (1, 46), (0, 46), (9, 47), (8, 47), (7, 47), (6, 47), (5, 47),
    (4, 47), (3, 47), (2, 47), (1, 47), (0, 47)]⟩

/-- include/primesieve/Wheel.hpp:36-50 -/
structure WheelElement where
  unsetBit : Byte
  nextMultipleFactor : ℕ
  correct : ℕ
  next : Int
deriving Inhabited, DecidableEq

/-- src/LookupTables.cpp:103-121 -/
def wheel30 : Vec WheelElement := ⟨#[
    ⟨bit0, 6, 1, 1⟩, ⟨bit4, 4, 1, 1⟩, ⟨bit3, 2, 0, 1⟩, ⟨bit7, 4, 1, 1⟩, ⟨bit6, 2, 1, 1⟩, ⟨bit2, 4, 1, 1⟩,
    ⟨bit1, 6, 1, 1⟩, ⟨bit5, 2, 1, -7⟩, ⟨bit1, 6, 2, 1⟩, ⟨bit3, 4, 1, 1⟩, ⟨bit7, 2, 1, 1⟩, ⟨bit5, 4, 2, 1⟩,
    ⟨bit0, 2, 0, 1⟩, ⟨bit6, 4, 2, 1⟩, ⟨bit2, 6, 2, 1⟩, ⟨bit4, 2, 1, -7⟩, ⟨bit2, 6, 2, 1⟩, ⟨bit7, 4, 2, 1⟩,
    ⟨bit5, 2, 1, 1⟩, ⟨bit4, 4, 2, 1⟩, ⟨bit1, 2, 1, 1⟩, ⟨bit0, 4, 1, 1⟩, ⟨bit6, 6, 3, 1⟩, ⟨bit3, 2, 1, -7⟩,
    ⟨bit3, 6, 3, 1⟩, ⟨bit6, 4, 3, 1⟩, ⟨bit0, 2, 1, 1⟩, ⟨bit1, 4, 2, 1⟩, ⟨bit4, 2, 1, 1⟩, ⟨bit5, 4, 2, 1⟩,
    ⟨bit7, 6, 4, 1⟩, ⟨bit2, 2, 1, -7⟩, ⟨bit4, 6, 4, 1⟩, ⟨bit2, 4, 2, 1⟩, ⟨bit6, 2, 2, 1⟩, ⟨bit0, 4, 2, 1⟩,
    ⟨bit5, 2, 1, 1⟩, ⟨bit7, 4, 3, 1⟩, ⟨bit3, 6, 4, 1⟩, ⟨bit1, 2, 1, -7⟩, ⟨bit5, 6, 5, 1⟩, ⟨bit1, 4, 3, 1⟩,
    ⟨bit2, 2, 1, 1⟩, ⟨bit6, 4, 3, 1⟩, ⟨bit7, 2, 2, 1⟩, ⟨bit3, 4, 3, 1⟩, ⟨bit4, 6, 5, 1⟩, ⟨bit0, 2, 1, -7⟩,
    ⟨bit6, 6, 6, 1⟩, ⟨bit5, 4, 4, 1⟩, ⟨bit4, 2, 2, 1⟩, ⟨bit3, 4, 4, 1⟩, ⟨bit2, 2, 2, 1⟩, ⟨bit1, 4, 4, 1⟩,
    ⟨bit0, 6, 5, 1⟩, ⟨bit7, 2, 2, -7⟩, ⟨bit7, 6, 1, 1⟩, ⟨bit0, 4, 0, 1⟩, ⟨bit1, 2, 0, 1⟩, ⟨bit2, 4, 0, 1⟩,
    ⟨bit3, 2, 0, 1⟩, ⟨bit4, 4, 0, 1⟩, ⟨bit5, 6, 0, 1⟩, ⟨bit6, 2, 0, -7⟩]⟩

/-- src/LookupTables.cpp:123-221 -/
def wheel210 : Vec WheelElement := ⟨#[
    ⟨bit0, 10, 2, 1⟩, ⟨bit3, 2, 0, 1⟩, ⟨bit7, 4, 1, 1⟩, ⟨bit6, 2, 1, 1⟩, ⟨bit2, 4, 1, 1⟩, ⟨bit1, 6, 1, 1⟩,
    ⟨bit5, 2, 1, 1⟩, ⟨bit0, 6, 1, 1⟩, ⟨bit4, 4, 1, 1⟩, ⟨bit3, 2, 0, 1⟩, ⟨bit7, 4, 1, 1⟩, ⟨bit6, 6, 2, 1⟩,
    ⟨bit1, 6, 1, 1⟩, ⟨bit5, 2, 1, 1⟩, ⟨bit0, 6, 1, 1⟩, ⟨bit4, 4, 1, 1⟩, ⟨bit3, 2, 0, 1⟩, ⟨bit7, 6, 2, 1⟩,
    ⟨bit2, 4, 1, 1⟩, ⟨bit1, 6, 1, 1⟩, ⟨bit5, 8, 2, 1⟩, ⟨bit4, 4, 1, 1⟩, ⟨bit3, 2, 0, 1⟩, ⟨bit7, 4, 1, 1⟩,
    ⟨bit6, 2, 1, 1⟩, ⟨bit2, 4, 1, 1⟩, ⟨bit1, 8, 2, 1⟩, ⟨bit0, 6, 1, 1⟩, ⟨bit4, 4, 1, 1⟩, ⟨bit3, 6, 1, 1⟩,
    ⟨bit6, 2, 1, 1⟩, ⟨bit2, 4, 1, 1⟩, ⟨bit1, 6, 1, 1⟩, ⟨bit5, 2, 1, 1⟩, ⟨bit0, 6, 1, 1⟩, ⟨bit4, 6, 1, 1⟩,
    ⟨bit7, 4, 1, 1⟩, ⟨bit6, 2, 1, 1⟩, ⟨bit2, 4, 1, 1⟩, ⟨bit1, 6, 1, 1⟩, ⟨bit5, 2, 1, 1⟩, ⟨bit0, 6, 1, 1⟩,
    ⟨bit4, 4, 1, 1⟩, ⟨bit3, 2, 0, 1⟩, ⟨bit7, 4, 1, 1⟩, ⟨bit6, 2, 1, 1⟩, ⟨bit2, 10, 2, 1⟩, ⟨bit5, 2, 1, -47⟩,
    ⟨bit1, 10, 3, 1⟩, ⟨bit7, 2, 1, 1⟩, ⟨bit5, 4, 2, 1⟩, ⟨bit0, 2, 0, 1⟩, ⟨bit6, 4, 2, 1⟩, ⟨bit2, 6, 2, 1⟩,
    ⟨bit4, 2, 1, 1⟩, ⟨bit1, 6, 2, 1⟩, ⟨bit3, 4, 1, 1⟩, ⟨bit7, 2, 1, 1⟩, ⟨bit5, 4, 2, 1⟩, ⟨bit0, 6, 2, 1⟩,
    ⟨bit2, 6, 2, 1⟩, ⟨bit4, 2, 1, 1⟩, ⟨bit1, 6, 2, 1⟩, ⟨bit3, 4, 1, 1⟩, ⟨bit7, 2, 1, 1⟩, ⟨bit5, 6, 2, 1⟩,
    ⟨bit6, 4, 2, 1⟩, ⟨bit2, 6, 2, 1⟩, ⟨bit4, 8, 3, 1⟩, ⟨bit3, 4, 1, 1⟩, ⟨bit7, 2, 1, 1⟩, ⟨bit5, 4, 2, 1⟩,
    ⟨bit0, 2, 0, 1⟩, ⟨bit6, 4, 2, 1⟩, ⟨bit2, 8, 3, 1⟩, ⟨bit1, 6, 2, 1⟩, ⟨bit3, 4, 1, 1⟩, ⟨bit7, 6, 3, 1⟩,
    ⟨bit0, 2, 0, 1⟩, ⟨bit6, 4, 2, 1⟩, ⟨bit2, 6, 2, 1⟩, ⟨bit4, 2, 1, 1⟩, ⟨bit1, 6, 2, 1⟩, ⟨bit3, 6, 2, 1⟩,
    ⟨bit5, 4, 2, 1⟩, ⟨bit0, 2, 0, 1⟩, ⟨bit6, 4, 2, 1⟩, ⟨bit2, 6, 2, 1⟩, ⟨bit4, 2, 1, 1⟩, ⟨bit1, 6, 2, 1⟩,
    ⟨bit3, 4, 1, 1⟩, ⟨bit7, 2, 1, 1⟩, ⟨bit5, 4, 2, 1⟩, ⟨bit0, 2, 0, 1⟩, ⟨bit6, 10, 4, 1⟩, ⟨bit4, 2, 1, -47⟩,
    ⟨bit2, 10, 4, 1⟩, ⟨bit5, 2, 1, 1⟩, ⟨bit4, 4, 2, 1⟩, ⟨bit1, 2, 1, 1⟩, ⟨bit0, 4, 1, 1⟩, ⟨bit6, 6, 3, 1⟩,
    ⟨bit3, 2, 1, 1⟩, ⟨bit2, 6, 2, 1⟩, ⟨bit7, 4, 2, 1⟩, ⟨bit5, 2, 1, 1⟩, ⟨bit4, 4, 2, 1⟩, ⟨bit1, 6, 2, 1⟩,
    ⟨bit6, 6, 3, 1⟩, ⟨bit3, 2, 1, 1⟩, ⟨bit2, 6, 2, 1⟩, ⟨bit7, 4, 2, 1⟩, ⟨bit5, 2, 1, 1⟩, ⟨bit4, 6, 3, 1⟩,
    ⟨bit0, 4, 1, 1⟩, ⟨bit6, 6, 3, 1⟩, ⟨bit3, 8, 3, 1⟩, ⟨bit7, 4, 2, 1⟩, ⟨bit5, 2, 1, 1⟩, ⟨bit4, 4, 2, 1⟩,
    ⟨bit1, 2, 1, 1⟩, ⟨bit0, 4, 1, 1⟩, ⟨bit6, 8, 4, 1⟩, ⟨bit2, 6, 2, 1⟩, ⟨bit7, 4, 2, 1⟩, ⟨bit5, 6, 3, 1⟩,
    ⟨bit1, 2, 1, 1⟩, ⟨bit0, 4, 1, 1⟩, ⟨bit6, 6, 3, 1⟩, ⟨bit3, 2, 1, 1⟩, ⟨bit2, 6, 2, 1⟩, ⟨bit7, 6, 3, 1⟩,
    ⟨bit4, 4, 2, 1⟩, ⟨bit1, 2, 1, 1⟩, ⟨bit0, 4, 1, 1⟩, ⟨bit6, 6, 3, 1⟩, ⟨bit3, 2, 1, 1⟩, ⟨bit2, 6, 2, 1⟩,
    ⟨bit7, 4, 2, 1⟩, ⟨bit5, 2, 1, 1⟩, ⟨bit4, 4, 2, 1⟩, ⟨bit1, 2, 1, 1⟩, ⟨bit0, 10, 4, 1⟩, ⟨bit3, 2, 1, -47⟩,
    ⟨bit3, 10, 6, 1⟩, ⟨bit0, 2, 1, 1⟩, ⟨bit1, 4, 2, 1⟩, ⟨bit4, 2, 1, 1⟩, ⟨bit5, 4, 2, 1⟩, ⟨bit7, 6, 4, 1⟩,
    ⟨bit2, 2, 1, 1⟩, ⟨bit3, 6, 3, 1⟩, ⟨bit6, 4, 3, 1⟩, ⟨bit0, 2, 1, 1⟩, ⟨bit1, 4, 2, 1⟩, ⟨bit4, 6, 3, 1⟩,
    ⟨bit7, 6, 4, 1⟩, ⟨bit2, 2, 1, 1⟩, ⟨bit3, 6, 3, 1⟩, ⟨bit6, 4, 3, 1⟩, ⟨bit0, 2, 1, 1⟩, ⟨bit1, 6, 3, 1⟩,
    ⟨bit5, 4, 2, 1⟩, ⟨bit7, 6, 4, 1⟩, ⟨bit2, 8, 4, 1⟩, ⟨bit6, 4, 3, 1⟩, ⟨bit0, 2, 1, 1⟩, ⟨bit1, 4, 2, 1⟩,
    ⟨bit4, 2, 1, 1⟩, ⟨bit5, 4, 2, 1⟩, ⟨bit7, 8, 5, 1⟩, ⟨bit3, 6, 3, 1⟩, ⟨bit6, 4, 3, 1⟩, ⟨bit0, 6, 3, 1⟩,
    ⟨bit4, 2, 1, 1⟩, ⟨bit5, 4, 2, 1⟩, ⟨bit7, 6, 4, 1⟩, ⟨bit2, 2, 1, 1⟩, ⟨bit3, 6, 3, 1⟩, ⟨bit6, 6, 4, 1⟩,
    ⟨bit1, 4, 2, 1⟩, ⟨bit4, 2, 1, 1⟩, ⟨bit5, 4, 2, 1⟩, ⟨bit7, 6, 4, 1⟩, ⟨bit2, 2, 1, 1⟩, ⟨bit3, 6, 3, 1⟩,
    ⟨bit6, 4, 3, 1⟩, ⟨bit0, 2, 1, 1⟩, ⟨bit1, 4, 2, 1⟩, ⟨bit4, 2, 1, 1⟩, ⟨bit5, 10, 6, 1⟩, ⟨bit2, 2, 1, -47⟩,
    ⟨bit4, 10, 6, 1⟩, ⟨bit6, 2, 2, 1⟩, ⟨bit0, 4, 2, 1⟩, ⟨bit5, 2, 1, 1⟩, ⟨bit7, 4, 3, 1⟩, ⟨bit3, 6, 4, 1⟩,
    ⟨bit1, 2, 1, 1⟩, ⟨bit4, 6, 4, 1⟩, ⟨bit2, 4, 2, 1⟩, ⟨bit6, 2, 2, 1⟩, ⟨bit0, 4, 2, 1⟩, ⟨bit5, 6, 4, 1⟩,
    ⟨bit3, 6, 4, 1⟩, ⟨bit1, 2, 1, 1⟩, ⟨bit4, 6, 4, 1⟩, ⟨bit2, 4, 2, 1⟩, ⟨bit6, 2, 2, 1⟩, ⟨bit0, 6, 3, 1⟩,
    ⟨bit7, 4, 3, 1⟩, ⟨bit3, 6, 4, 1⟩, ⟨bit1, 8, 5, 1⟩, ⟨bit2, 4, 2, 1⟩, ⟨bit6, 2, 2, 1⟩, ⟨bit0, 4, 2, 1⟩,
    ⟨bit5, 2, 1, 1⟩, ⟨bit7, 4, 3, 1⟩, ⟨bit3, 8, 5, 1⟩, ⟨bit4, 6, 4, 1⟩, ⟨bit2, 4, 2, 1⟩, ⟨bit6, 6, 4, 1⟩,
    ⟨bit5, 2, 1, 1⟩, ⟨bit7, 4, 3, 1⟩, ⟨bit3, 6, 4, 1⟩, ⟨bit1, 2, 1, 1⟩, ⟨bit4, 6, 4, 1⟩, ⟨bit2, 6, 4, 1⟩,
    ⟨bit0, 4, 2, 1⟩, ⟨bit5, 2, 1, 1⟩, ⟨bit7, 4, 3, 1⟩, ⟨bit3, 6, 4, 1⟩, ⟨bit1, 2, 1, 1⟩, ⟨bit4, 6, 4, 1⟩,
    ⟨bit2, 4, 2, 1⟩, ⟨bit6, 2, 2, 1⟩, ⟨bit0, 4, 2, 1⟩, ⟨bit5, 2, 1, 1⟩, ⟨bit7, 10, 7, 1⟩, ⟨bit1, 2, 1, -47⟩,
    ⟨bit5, 10, 8, 1⟩, ⟨bit2, 2, 1, 1⟩, ⟨bit6, 4, 3, 1⟩, ⟨bit7, 2, 2, 1⟩, ⟨bit3, 4, 3, 1⟩, ⟨bit4, 6, 5, 1⟩,
    ⟨bit0, 2, 1, 1⟩, ⟨bit5, 6, 5, 1⟩, ⟨bit1, 4, 3, 1⟩, ⟨bit2, 2, 1, 1⟩, ⟨bit6, 4, 3, 1⟩, ⟨bit7, 6, 5, 1⟩,
    ⟨bit4, 6, 5, 1⟩, ⟨bit0, 2, 1, 1⟩, ⟨bit5, 6, 5, 1⟩, ⟨bit1, 4, 3, 1⟩, ⟨bit2, 2, 1, 1⟩, ⟨bit6, 6, 5, 1⟩,
    ⟨bit3, 4, 3, 1⟩, ⟨bit4, 6, 5, 1⟩, ⟨bit0, 8, 6, 1⟩, ⟨bit1, 4, 3, 1⟩, ⟨bit2, 2, 1, 1⟩, ⟨bit6, 4, 3, 1⟩,
    ⟨bit7, 2, 2, 1⟩, ⟨bit3, 4, 3, 1⟩, ⟨bit4, 8, 6, 1⟩, ⟨bit5, 6, 5, 1⟩, ⟨bit1, 4, 3, 1⟩, ⟨bit2, 6, 4, 1⟩,
    ⟨bit7, 2, 2, 1⟩, ⟨bit3, 4, 3, 1⟩, ⟨bit4, 6, 5, 1⟩, ⟨bit0, 2, 1, 1⟩, ⟨bit5, 6, 5, 1⟩, ⟨bit1, 6, 4, 1⟩,
    ⟨bit6, 4, 3, 1⟩, ⟨bit7, 2, 2, 1⟩, ⟨bit3, 4, 3, 1⟩, ⟨bit4, 6, 5, 1⟩, ⟨bit0, 2, 1, 1⟩, ⟨bit5, 6, 5, 1⟩,
    ⟨bit1, 4, 3, 1⟩, ⟨bit2, 2, 1, 1⟩, ⟨bit6, 4, 3, 1⟩, ⟨bit7, 2, 2, 1⟩, ⟨bit3, 10, 8, 1⟩, ⟨bit0, 2, 1, -47⟩,
    ⟨bit6, 10, 10, 1⟩, ⟨bit4, 2, 2, 1⟩, ⟨bit3, 4, 4, 1⟩, ⟨bit2, 2, 2, 1⟩, ⟨bit1, 4, 4, 1⟩, ⟨bit0, 6, 5, 1⟩,
    ⟨bit7, 2, 2, 1⟩, ⟨bit6, 6, 6, 1⟩, ⟨bit5, 4, 4, 1⟩, ⟨bit4, 2, 2, 1⟩, ⟨bit3, 4, 4, 1⟩, ⟨bit2, 6, 6, 1⟩,
    ⟨bit0, 6, 5, 1⟩, ⟨bit7, 2, 2, 1⟩, ⟨bit6, 6, 6, 1⟩, ⟨bit5, 4, 4, 1⟩, ⟨bit4, 2, 2, 1⟩, ⟨bit3, 6, 6, 1⟩,
    ⟨bit1, 4, 4, 1⟩, ⟨bit0, 6, 5, 1⟩, ⟨bit7, 8, 8, 1⟩, ⟨bit5, 4, 4, 1⟩, ⟨bit4, 2, 2, 1⟩, ⟨bit3, 4, 4, 1⟩,
    ⟨bit2, 2, 2, 1⟩, ⟨bit1, 4, 4, 1⟩, ⟨bit0, 8, 7, 1⟩, ⟨bit6, 6, 6, 1⟩, ⟨bit5, 4, 4, 1⟩, ⟨bit4, 6, 6, 1⟩,
    ⟨bit2, 2, 2, 1⟩, ⟨bit1, 4, 4, 1⟩, ⟨bit0, 6, 5, 1⟩, ⟨bit7, 2, 2, 1⟩, ⟨bit6, 6, 6, 1⟩, ⟨bit5, 6, 6, 1⟩,
    ⟨bit3, 4, 4, 1⟩, ⟨bit2, 2, 2, 1⟩, ⟨bit1, 4, 4, 1⟩, ⟨bit0, 6, 5, 1⟩, ⟨bit7, 2, 2, 1⟩, ⟨bit6, 6, 6, 1⟩,
    ⟨bit5, 4, 4, 1⟩, ⟨bit4, 2, 2, 1⟩, ⟨bit3, 4, 4, 1⟩, ⟨bit2, 2, 2, 1⟩, ⟨bit1, 10, 9, 1⟩, ⟨bit7, 2, 2, -47⟩,
    ⟨bit7, 10, 1, 1⟩, ⟨bit1, 2, 0, 1⟩, ⟨bit2, 4, 0, 1⟩, ⟨bit3, 2, 0, 1⟩, ⟨bit4, 4, 0, 1⟩, ⟨bit5, 6, 0, 1⟩,
    ⟨bit6, 2, 0, 1⟩, ⟨bit7, 6, 1, 1⟩, ⟨bit0, 4, 0, 1⟩, ⟨bit1, 2, 0, 1⟩, ⟨bit2, 4, 0, 1⟩, ⟨bit3, 6, 0, 1⟩,
    ⟨bit5, 6, 0, 1⟩, ⟨bit6, 2, 0, 1⟩, ⟨bit7, 6, 1, 1⟩, ⟨bit0, 4, 0, 1⟩, ⟨bit1, 2, 0, 1⟩, ⟨bit2, 6, 0, 1⟩,
    ⟨bit4, 4, 0, 1⟩, ⟨bit5, 6, 0, 1⟩, ⟨bit6, 8, 1, 1⟩, ⟨bit0, 4, 0, 1⟩, ⟨bit1, 2, 0, 1⟩, ⟨bit2, 4, 0, 1⟩,
    ⟨bit3, 2, 0, 1⟩, ⟨bit4, 4, 0, 1⟩, ⟨bit5, 8, 0, 1⟩, ⟨bit7, 6, 1, 1⟩, ⟨bit0, 4, 0, 1⟩, ⟨bit1, 6, 0, 1⟩,
    ⟨bit3, 2, 0, 1⟩, ⟨bit4, 4, 0, 1⟩, ⟨bit5, 6, 0, 1⟩, ⟨bit6, 2, 0, 1⟩, ⟨bit7, 6, 1, 1⟩, ⟨bit0, 6, 0, 1⟩,
    ⟨bit2, 4, 0, 1⟩, ⟨bit3, 2, 0, 1⟩, ⟨bit4, 4, 0, 1⟩, ⟨bit5, 6, 0, 1⟩, ⟨bit6, 2, 0, 1⟩, ⟨bit7, 6, 1, 1⟩,
    ⟨bit0, 4, 0, 1⟩, ⟨bit1, 2, 0, 1⟩, ⟨bit2, 4, 0, 1⟩, ⟨bit3, 2, 0, 1⟩, ⟨bit4, 10, 0, 1⟩, ⟨bit6, 2, 0, -47⟩]⟩

/-- src/EratSmall.cpp:114-124, 139-149, … : the eight statements `p[sievingPrime * a + b] &= BITk` of the
unrolled loop of each residue class, as (`a`, `b`, `BITk`). -/
def smallUnrolled : Vec (ℕ × ℕ × Byte) := ⟨#[
    (0, 0, bit0), (6, 1, bit4), (10, 2, bit3), (12, 2, bit7), (16, 3, bit6), (18, 4, bit2), (22, 5, bit1),
    (28, 6, bit5), (0, 0, bit1), (6, 2, bit3), (10, 3, bit7), (12, 4, bit5), (16, 6, bit0), (18, 6, bit6),
    (22, 8, bit2), (28, 10, bit4), (0, 0, bit2), (6, 2, bit7), (10, 4, bit5), (12, 5, bit4), (16, 7, bit1),
    (18, 8, bit0), (22, 9, bit6), (28, 12, bit3), (0, 0, bit3), (6, 3, bit6), (10, 6, bit0), (12, 7, bit1),
    (16, 9, bit4), (18, 10, bit5), (22, 12, bit7), (28, 16, bit2), (0, 0, bit4), (6, 4, bit2), (10, 6, bit6),
    (12, 8, bit0), (16, 10, bit5), (18, 11, bit7), (22, 14, bit3), (28, 18, bit1), (0, 0, bit5),
    (6, 5, bit1), (10, 8, bit2), (12, 9, bit6), (16, 12, bit7), (18, 14, bit3), (22, 17, bit4),
    (28, 22, bit0), (0, 0, bit6), (6, 6, bit5), (10, 10, bit4), (12, 12, bit3), (16, 16, bit2),
    (18, 18, bit1), (22, 22, bit0), (28, 27, bit7), (0, 0, bit7), (6, 1, bit0), (10, 1, bit1), (12, 1, bit2),
    (16, 1, bit3), (18, 1, bit4), (22, 1, bit5), (28, 1, bit6)]⟩

/-- src/EratSmall.cpp:114, 139, … : `p += sievingPrime * 30 + b` of the unrolled loop. -/
def smallLoopAdd : Vec ℕ := ⟨#[7, 11, 13, 17, 19, 23, 29, 1]⟩

/-- src/EratSmall.cpp:125-132, 150-157, … : `*p &= BITk; p += sievingPrime * a + b` of the 64 cases, as
(`BITk`, `a`, `b`). -/
def smallStep : Vec (Byte × ℕ × ℕ) := ⟨#[
    (bit0, 6, 1), (bit4, 4, 1), (bit3, 2, 0), (bit7, 4, 1), (bit6, 2, 1), (bit2, 4, 1), (bit1, 6, 1),
    (bit5, 2, 1), (bit1, 6, 2), (bit3, 4, 1), (bit7, 2, 1), (bit5, 4, 2), (bit0, 2, 0), (bit6, 4, 2),
    (bit2, 6, 2), (bit4, 2, 1), (bit2, 6, 2), (bit7, 4, 2), (bit5, 2, 1), (bit4, 4, 2), (bit1, 2, 1),
    (bit0, 4, 1), (bit6, 6, 3), (bit3, 2, 1), (bit3, 6, 3), (bit6, 4, 3), (bit0, 2, 1), (bit1, 4, 2),
    (bit4, 2, 1), (bit5, 4, 2), (bit7, 6, 4), (bit2, 2, 1), (bit4, 6, 4), (bit2, 4, 2), (bit6, 2, 2),
    (bit0, 4, 2), (bit5, 2, 1), (bit7, 4, 3), (bit3, 6, 4), (bit1, 2, 1), (bit5, 6, 5), (bit1, 4, 3),
    (bit2, 2, 1), (bit6, 4, 3), (bit7, 2, 2), (bit3, 4, 3), (bit4, 6, 5), (bit0, 2, 1), (bit6, 6, 6),
    (bit5, 4, 4), (bit4, 2, 2), (bit3, 4, 4), (bit2, 2, 2), (bit1, 4, 4), (bit0, 6, 5), (bit7, 2, 2),
    (bit7, 6, 1), (bit0, 4, 0), (bit1, 2, 0), (bit2, 4, 0), (bit3, 2, 0), (bit4, 4, 0), (bit5, 6, 0),
    (bit6, 2, 0)]⟩

/-- src/EratMedium.cpp:134-137, 145-152, … : `*p &= BITk; p += dist` with `dist = sievingPrime * a + b` of the
64 cases of the eight functions `crossOff_7` … `crossOff_31`, as (`BITk`, `a`, `b`). -/
def mediumStep : Vec (Byte × ℕ × ℕ) := ⟨#[
    (bit0, 6, 1), (bit4, 4, 1), (bit3, 2, 0), (bit7, 4, 1), (bit6, 2, 1), (bit2, 4, 1), (bit1, 6, 1),
    (bit5, 2, 1), (bit1, 6, 2), (bit3, 4, 1), (bit7, 2, 1), (bit5, 4, 2), (bit0, 2, 0), (bit6, 4, 2),
    (bit2, 6, 2), (bit4, 2, 1), (bit2, 6, 2), (bit7, 4, 2), (bit5, 2, 1), (bit4, 4, 2), (bit1, 2, 1),
    (bit0, 4, 1), (bit6, 6, 3), (bit3, 2, 1), (bit3, 6, 3), (bit6, 4, 3), (bit0, 2, 1), (bit1, 4, 2),
    (bit4, 2, 1), (bit5, 4, 2), (bit7, 6, 4), (bit2, 2, 1), (bit4, 6, 4), (bit2, 4, 2), (bit6, 2, 2),
    (bit0, 4, 2), (bit5, 2, 1), (bit7, 4, 3), (bit3, 6, 4), (bit1, 2, 1), (bit5, 6, 5), (bit1, 4, 3),
    (bit2, 2, 1), (bit6, 4, 3), (bit7, 2, 2), (bit3, 4, 3), (bit4, 6, 5), (bit0, 2, 1), (bit6, 6, 6),
    (bit5, 4, 4), (bit4, 2, 2), (bit3, 4, 4), (bit2, 2, 2), (bit1, 4, 4), (bit0, 6, 5), (bit7, 2, 2),
    (bit7, 6, 1), (bit0, 4, 0), (bit1, 2, 0), (bit2, 4, 0), (bit3, 2, 0), (bit4, 4, 0), (bit5, 6, 0),
    (bit6, 2, 0)]⟩

/-- src/Erat.cpp:32-39 -/
def unsetSmaller : Vec Byte := ⟨#[
    0xff, 0xff, 0xff, 0xff, 0xff, 0xff, 0xff, 0xff, 0xfe, 0xfe, 0xfe, 0xfe, 0xfc, 0xfc, 0xf8, 0xf8, 0xf8,
    0xf8, 0xf0, 0xf0, 0xe0, 0xe0, 0xe0, 0xe0, 0xc0, 0xc0, 0xc0, 0xc0, 0xc0, 0xc0, 0x80, 0x80, 0x00, 0x00,
    0x00, 0x00, 0x00]⟩

/-- src/Erat.cpp:42-49 -/
def unsetLarger : Vec Byte := ⟨#[
    0x00, 0x00, 0x00, 0x00, 0x00, 0x00, 0x00, 0x01, 0x01, 0x01, 0x01, 0x03, 0x03, 0x07, 0x07, 0x07, 0x07,
    0x0f, 0x0f, 0x1f, 0x1f, 0x1f, 0x1f, 0x3f, 0x3f, 0x3f, 0x3f, 0x3f, 0x3f, 0x7f, 0x7f, 0xff, 0xff, 0xff,
    0xff, 0xff, 0xff]⟩

/-- src/PrimeGenerator.cpp:34-50: the first 128 primes. -/
def smallPrimes : Vec ℕ := ⟨#[
    2, 3, 5, 7, 11, 13, 17, 19, 23, 29, 31, 37, 41, 43, 47, 53, 59, 61, 67, 71, 73, 79, 83, 89, 97, 101, 103,
    107, 109, 113, 127, 131, 137, 139, 149, 151, 157, 163, 167, 173, 179, 181, 191, 193, 197, 199, 211, 223,
    227, 229, 233, 239, 241, 251, 257, 263, 269, 271, 277, 281, 283, 293, 307, 311, 313, 317, 331, 337, 347,
    349, 353, 359, 367, 373, 379, 383, 389, 397, 401, 409, 419, 421, 431, 433, 439, 443, 449, 457, 461, 463,
    467, 479, 487, 491, 499, 503, 509, 521, 523, 541, 547, 557, 563, 569, 571, 577, 587, 593, 599, 601, 607,
    613, 617, 619, 631, 641, 643, 647, 653, 659, 661, 673, 677, 683, 691, 701, 709, 719]⟩

/-- src/PrimeGenerator.cpp:53-102: `primePi[i]` is the number of primes `≤ i`. -/
def primePi : Vec ℕ := ⟨#[
    0, 0, 1, 2, 2, 3, 3, 4, 4, 4, 4, 5, 5, 6, 6, 6, 6, 7, 7, 8, 8, 8, 8, 9, 9, 9, 9, 9, 9, 10, 10, 11, 11,
    11, 11, 11, 11, 12, 12, 12, 12, 13, 13, 14, 14, 14, 14, 15, 15, 15, 15, 15, 15, 16, 16, 16, 16, 16, 16,
    17, 17, 18, 18, 18, 18, 18, 18, 19, 19, 19, 19, 20, 20, 21, 21, 21, 21, 21, 21, 22, 22, 22, 22, 23, 23,
    23, 23, 23, 23, 24, 24, 24, 24, 24, 24, 24, 24, 25, 25, 25, 25, 26, 26, 27, 27, 27, 27, 28, 28, 29, 29,
    29, 29, 30, 30, 30, 30, 30, 30, 30, 30, 30, 30, 30, 30, 30, 30, 31, 31, 31, 31, 32, 32, 32, 32, 32, 32,
    33, 33, 34, 34, 34, 34, 34, 34, 34, 34, 34, 34, 35, 35, 36, 36, 36, 36, 36, 36, 37, 37, 37, 37, 37, 37,
    38, 38, 38, 38, 39, 39, 39, 39, 39, 39, 40, 40, 40, 40, 40, 40, 41, 41, 42, 42, 42, 42, 42, 42, 42, 42,
    42, 42, 43, 43, 44, 44, 44, 44, 45, 45, 46, 46, 46, 46, 46, 46, 46, 46, 46, 46, 46, 46, 47, 47, 47, 47,
    47, 47, 47, 47, 47, 47, 47, 47, 48, 48, 48, 48, 49, 49, 50, 50, 50, 50, 51, 51, 51, 51, 51, 51, 52, 52,
    53, 53, 53, 53, 53, 53, 53, 53, 53, 53, 54, 54, 54, 54, 54, 54, 55, 55, 55, 55, 55, 55, 56, 56, 56, 56,
    56, 56, 57, 57, 58, 58, 58, 58, 58, 58, 59, 59, 59, 59, 60, 60, 61, 61, 61, 61, 61, 61, 61, 61, 61, 61,
    62, 62, 62, 62, 62, 62, 62, 62, 62, 62, 62, 62, 62, 62, 63, 63, 63, 63, 64, 64, 65, 65, 65, 65, 66, 66,
    66, 66, 66, 66, 66, 66, 66, 66, 66, 66, 66, 66, 67, 67, 67, 67, 67, 67, 68, 68, 68, 68, 68, 68, 68, 68,
    68, 68, 69, 69, 70, 70, 70, 70, 71, 71, 71, 71, 71, 71, 72, 72, 72, 72, 72, 72, 72, 72, 73, 73, 73, 73,
    73, 73, 74, 74, 74, 74, 74, 74, 75, 75, 75, 75, 76, 76, 76, 76, 76, 76, 77, 77, 77, 77, 77, 77, 77, 77,
    78, 78, 78, 78, 79, 79, 79, 79, 79, 79, 79, 79, 80, 80, 80, 80, 80, 80, 80, 80, 80, 80, 81, 81, 82, 82,
    82, 82, 82, 82, 82, 82, 82, 82, 83, 83, 84, 84, 84, 84, 84, 84, 85, 85, 85, 85, 86, 86, 86, 86, 86, 86,
    87, 87, 87, 87, 87, 87, 87, 87, 88, 88, 88, 88, 89, 89, 90, 90, 90, 90, 91, 91, 91, 91, 91, 91, 91, 91,
    91, 91, 91, 91, 92, 92, 92, 92, 92, 92, 92, 92, 93, 93, 93, 93, 94, 94, 94, 94, 94, 94, 94, 94, 95, 95,
    95, 95, 96, 96, 96, 96, 96, 96, 97, 97, 97, 97, 97, 97, 97, 97, 97, 97, 97, 97, 98, 98, 99, 99, 99, 99,
    99, 99, 99, 99, 99, 99, 99, 99, 99, 99, 99, 99, 99, 99, 100, 100, 100, 100, 100, 100, 101, 101, 101, 101,
    101, 101, 101, 101, 101, 101, 102, 102, 102, 102, 102, 102, 103, 103, 103, 103, 103, 103, 104, 104, 105,
    105, 105, 105, 105, 105, 106, 106, 106, 106, 106, 106, 106, 106, 106, 106, 107, 107, 107, 107, 107, 107,
    108, 108, 108, 108, 108, 108, 109, 109, 110, 110, 110, 110, 110, 110, 111, 111, 111, 111, 111, 111, 112,
    112, 112, 112, 113, 113, 114, 114, 114, 114, 114, 114, 114, 114, 114, 114, 114, 114, 115, 115, 115, 115,
    115, 115, 115, 115, 115, 115, 116, 116, 117, 117, 117, 117, 118, 118, 118, 118, 118, 118, 119, 119, 119,
    119, 119, 119, 120, 120, 121, 121, 121, 121, 121, 121, 121, 121, 121, 121, 121, 121, 122, 122, 122, 122,
    123, 123, 123, 123, 123, 123, 124, 124, 124, 124, 124, 124, 124, 124, 125, 125, 125, 125, 125, 125, 125,
    125, 125, 125, 126, 126, 126, 126, 126, 126, 126, 126, 127, 127, 127, 127, 127, 127, 127, 127, 127, 127,
    128]⟩

end Psv
end PS
