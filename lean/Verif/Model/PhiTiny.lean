import Verif.Model.Width

/-!
# Model of src/PhiTiny.cpp and include/PhiTiny.hpp
-/

namespace PS.PhiTiny

/-- src/PhiTiny.cpp:26. -/
def primes : Vec ℕ := ⟨#[0, 2, 3, 5, 7, 11, 13]⟩
/-- src/PhiTiny.cpp:29. -/
def primeProducts : Vec ℕ := ⟨#[1, 2, 6, 30, 210, 2310, 30030]⟩
/-- src/PhiTiny.cpp:32. -/
def totients : Vec ℕ := ⟨#[1, 1, 2, 8, 48, 480, 5760]⟩
/-- src/PhiTiny.cpp:35. -/
def piTab : Vec ℕ := ⟨#[0, 0, 1, 2, 2, 3, 3, 4, 4, 4, 4, 5, 5]⟩

/-- `vector<int16_t>` of values. -/
structure Tab where
  v : Vec Int

instance : Inhabited Tab := ⟨⟨⟨#[]⟩⟩⟩

/-- include/PhiTiny.hpp:35-41 (`phi`), for a signed type `T` with `b` value bits (`T = int` in the constructor,
`T = int64_t` in `phi_tiny`). -/
def phiT (b : ℕ) (tabs : Vec Tab) (x a : ℕ) : M Int := do
  let pp ← primeProducts.rd a
  let tot ← totients.rd a
  let t ← tabs.rd a
  let q ← cdiv x pp
  let e ← t.v.rd (x % pp)
  let m ← fitI b ((q : Int) * tot)
  fitI b (m + e)

/-- include/PhiTiny.hpp:35-41 with `T = uint32_t`: the product and the sum are reduced modulo `2^32`. -/
def phiU32 (tabs : Vec Tab) (x a : ℕ) : M Int := do
  let pp ← primeProducts.rd a
  let tot ← totients.rd a
  let t ← tabs.rd a
  let q ← cdiv x pp
  let e ← t.v.rd (x % pp)
  return ((q : Int) * tot % 2 ^ 32 + e) % 2 ^ 32

/-- src/PhiTiny.cpp:40-56: the constructor; `(int16_t)` reduces to 16-bit two's complement. -/
def build : M (Vec Tab) := do
  let tabs : Vec Tab := Vec.mk' 7 ⟨⟨#[]⟩⟩
  let tabs := tabs.set 0 ⟨⟨#[0]⟩⟩
  forUp 1 7 tabs (fun a tabs => do
    let pp ← primeProducts.rd a
    let p ← primes.rd a
    let row ← forUp 0 pp (Vec.mk' pp 0) (fun x row => do
      let u ← phiT 31 tabs x (a - 1)
      let xp ← cdiv x p
      let w ← phiT 31 tabs xp (a - 1)
      row.wr x (Int.bmod (u - w) (2 ^ 16)))
    tabs.wr a ⟨row⟩)

/-- include/PhiTiny.hpp:43-51. -/
def getC (y : ℕ) : M ℕ :=
  if y ≥ 13 then pure 6 else piTab.rd y

/-- include/PhiTiny.hpp:68-71. -/
def isPhiTiny (a : ℕ) : Bool := a ≤ 6

/-- include/PhiTiny.hpp:73-80. -/
def phiTiny (tabs : Vec Tab) (x a : ℕ) : M Int :=
  if x ≤ 2 ^ 32 - 1 then phiU32 tabs x a else phiT 63 tabs x a

end PS.PhiTiny
