import Verif.Model.Width
import Mathlib.Data.Nat.Bitwise

/-!
# Model of include/BinaryIndexedTree.hpp

The counters are `int128_t`.  `T` is the type of the sieve: `sieve.size()` and `sieve[i]` are parameters.
-/

namespace PS

/-- include/BinaryIndexedTree.hpp:83-84: the members `tree_` and `size_`. -/
structure BIT where
  tree : Vec ℤ := ⟨#[]⟩
  size : ℕ := 0
deriving Inhabited

namespace BIT

/-- `std::vector::resize`. -/
def resize (v : Vec ℤ) (n : ℕ) : Vec ℤ := Vec.ofFn n (fun i => if i < v.size then v.get i else 0)

/-- include/BinaryIndexedTree.hpp:47-49: the inner loop of `init`. -/
def initInner (i k : ℕ) (tree : Vec ℤ) : M (Vec ℤ) :=
  loop (i + 3) (i, k, tree) (fun ((j, k, tree) : ℕ × ℕ × Vec ℤ) =>
    let k := k >>> 1
    if k ≠ 0 then do
      let v ← tree.rd i
      let j1 ← csub j 1
      let w ← tree.rd j1
      let s ← fitI 127 (v + w)
      let tree ← tree.wr i s
      let j := j &&& j1
      pure (.next (j, k, tree))
    else pure (.done tree))

/-- include/BinaryIndexedTree.hpp:37-51: `init`. -/
def init (t : BIT) (sieveSize : ℕ) (sieve : ℕ → M Bool) (low : ℕ) : M BIT := do
  let size := sieveSize / 2
  let tree := resize t.tree size
  let tree ← forUp 0 size tree (fun i tree => do
    let i2 := i * 2
    let s ← sieve i2
    let n ← fit 63 (low + i2)
    let tree ← tree.wr i ((n : ℤ) * (if s then 1 else 0))
    let k := Nat.ldiff (i + 1) i
    initInner i k tree)
  pure ⟨tree, size⟩

/-- include/BinaryIndexedTree.hpp:58-67: `update`. -/
def update (t : BIT) (n low : ℕ) : M BIT := do
  let pos ← csub n low
  let pos := pos >>> 1
  loop (t.size + 2) (pos, t.tree) (fun ((pos, tree) : ℕ × Vec ℤ) => do
    let v ← tree.rd pos
    let s ← fitI 127 (v - n)
    let tree ← tree.wr pos s
    let pos := pos ||| (pos + 1)
    if pos < t.size then pure (.next (pos, tree))
    else pure (.done ⟨tree, t.size⟩))

/-- include/BinaryIndexedTree.hpp:73-80: `sum`. -/
def sum (t : BIT) (pos : ℕ) : M ℤ := do
  let pos := pos >>> 1
  let s ← t.tree.rd pos
  let pos := pos + 1
  loop (pos + 1) (pos, s) (fun ((pos, s) : ℕ × ℤ) => do
    let p1 ← csub pos 1
    let pos := pos &&& p1
    if pos ≠ 0 then do
      let v ← t.tree.rd (pos - 1)
      let s ← fitI 127 (s + v)
      pure (.next (pos, s))
    else pure (.done s))

end BIT
end PS
