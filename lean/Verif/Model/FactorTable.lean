import Verif.Model.Omp
import Verif.Model.Imath
import Verif.Model.Misc
import Verif.Model.PrimeSieve
import Verif.Model.Width

/-!
# Model of include/FactorTable.hpp and src/FactorTable.cpp

`T` is `uint16_t` or `uint32_t`; `tmax` is its maximum.  The threads of the constructor share the table.  What a
thread does to the table does not depend on what it reads from it: it executes a list of operations `FOp`,
each of which reads and writes one entry.  An arbitrary interleaving of these lists is then applied to the
table (`Merge`).  `isqrt` is `Nat.sqrt` (C32).  The variables of the constructor are of type `int64_t`.
-/

namespace PS
namespace FactorTable

/-- src/FactorTable.cpp:16-26. -/
def numbers : Vec ℕ := ⟨#[
    1, 11, 13, 17, 19, 23, 29, 31, 37, 41, 43, 47, 53, 59, 61, 67,
    71, 73, 79, 83, 89, 97, 101, 103, 107, 109, 113, 121, 127, 131, 137, 139,
    143, 149, 151, 157, 163, 167, 169, 173, 179, 181, 187, 191, 193, 197, 199, 209]⟩

/-- src/FactorTable.cpp:28-57. -/
def indexes : Vec ℤ := ⟨#[
    -1, 0, 0, 0, 0, 0, 0, 0, 0, 0, 0, 1, 1, 2, 2, 2, 2, 3, 3, 4, 4,
    4, 4, 5, 5, 5, 5, 5, 5, 6, 6, 7, 7, 7, 7, 7, 7, 8, 8, 8, 8, 9,
    9, 10, 10, 10, 10, 11, 11, 11, 11, 11, 11, 12, 12, 12, 12, 12, 12, 13, 13, 14, 14,
    14, 14, 14, 14, 15, 15, 15, 15, 16, 16, 17, 17, 17, 17, 17, 17, 18, 18, 18, 18, 19,
    19, 19, 19, 19, 19, 20, 20, 20, 20, 20, 20, 20, 20, 21, 21, 21, 21, 22, 22, 23, 23,
    23, 23, 24, 24, 25, 25, 25, 25, 26, 26, 26, 26, 26, 26, 26, 26, 27, 27, 27, 27, 27,
    27, 28, 28, 28, 28, 29, 29, 29, 29, 29, 29, 30, 30, 31, 31, 31, 31, 32, 32, 32, 32,
    32, 32, 33, 33, 34, 34, 34, 34, 34, 34, 35, 35, 35, 35, 35, 35, 36, 36, 36, 36, 37,
    37, 38, 38, 38, 38, 39, 39, 39, 39, 39, 39, 40, 40, 41, 41, 41, 41, 41, 41, 42, 42,
    42, 42, 43, 43, 44, 44, 44, 44, 45, 45, 46, 46, 46, 46, 46, 46, 46, 46, 46, 46, 47]⟩

/-- include/FactorTable.hpp:62-68.  A negative result (number = 0) is reported. -/
def getIndex (number : ℕ) : M ℕ := do
  let q := number / 210
  let r := number % 210
  let t ← indexes.rd r
  let v : ℤ := 48 * q + t
  if v < 0 then .error .neg else pure v.toNat

/-- include/FactorTable.hpp:70-75. -/
def getNumber (index : ℕ) : M ℕ := do
  let q := index / 48
  let r := index % 48
  let t ← numbers.rd r
  pure (210 * q + t)

/-- One access of a thread to the table: lines 121-129 (`hit`) and line 140 (`zero`). -/
inductive FOp where
  | hit (i p : ℕ)
  | zero (i : ℕ)
deriving Inhabited

/-- include/FactorTable.hpp:121-129 and :140. -/
def FOp.apply (tmax : ℕ) (t : Vec ℕ) : FOp → M (Vec ℕ)
  | .hit mi prime => do
    let v ← t.rd mi
    if v = tmax then t.wr mi (prime % (tmax + 1))
    else if v ≠ 0 then t.wr mi (v ^^^ 1)
    else pure t
  | .zero mi => t.wr mi 0

/-- include/FactorTable.hpp:182-195: `next_multiple`; returns the multiple and the new `*index`. -/
def nextMultiple (prime low index : ℕ) : M (ℕ × ℕ) := do
  let _ ← fit 63 (low + prime)
  let quotient ← ceilDiv low prime
  let qi ← getIndex quotient
  let i := max index qi
  loop (low + 3) (i, 0) (fun ((i, multiple) : ℕ × ℕ) =>
    if multiple ≤ low then do
      let n ← getNumber i
      let m ← fit 63 (prime * n)
      pure (.next (i + 1, m))
    else pure (.done (multiple, i)))

/-- include/FactorTable.hpp:119-130 and :139-140: a loop over the multiples of `q` up to `high`. -/
def crossOff (q high : ℕ) (op : ℕ → FOp) (multiple i : ℕ) (ops : List FOp) : M (List FOp) :=
  loop (high + 2) (multiple, i, ops) (fun ((multiple, i, ops) : ℕ × ℕ × List FOp) =>
    if multiple ≤ high then do
      let mi ← getIndex multiple
      let n ← getNumber i
      let m ← fit 63 (q * n)
      pure (.next (m, i + 1, ops ++ [op mi]))
    else pure (.done ops))

/-- include/FactorTable.hpp:104-142: the operations of one thread. -/
def thread (sqrty low high : ℕ) : M (List FOp) := do
  let n1 ← getNumber 1
  let pos ← csub n1 1
  loop (high + 2) (pos, []) (fun ((pos, ops) : ℕ × List FOp) => do
    let prime ← fit 63 (nextPrime pos)
    let (multiple, i) ← nextMultiple prime low 1
    let minM ← fit 63 (prime * n1)
    if minM > high then pure (.done ops)
    else do
      let ops ← crossOff prime high (fun mi => .hit mi prime) multiple i ops
      if prime ≤ sqrty then do
        let square ← fit 63 (prime * prime)
        let (multiple, j) ← nextMultiple square low 0
        let ops ← crossOff square high (fun mi => .zero mi) multiple j ops
        pure (.next (prime, ops))
      else pure (.next (prime, ops)))

/-- An interleaving of the operations of the threads; every operation is tagged with its thread. -/
abbrev Merge := List (List FOp) → List (ℕ × FOp)

/-- The operations of every thread occur in their order, and no others. -/
def Merge.Valid (m : Merge) : Prop :=
  ∀ ls t, ((m ls).filter (fun o => o.1 = t)).map Prod.snd = ls.getD t []

/-- The threads one after the other. -/
def Merge.seq : Merge := fun ls => (ls.zipIdx.map (fun lt => lt.1.map (fun o => (lt.2, o)))).flatten

/-- include/FactorTable.hpp:171-175. -/
def max' (tmax : ℕ) : ℕ := (tmax - 1) ^ 2 - 1

/-- include/FactorTable.hpp:87-144: the constructor. -/
def build (tmax : ℕ) (merge : Merge) (y : ℕ) (threads : ℤ) : M (Vec ℕ) := do
  if y > max' tmax then .error (.thrown "y must be <= FactorTable::max()")
  else do
    let y := max 8 y
    let size ← getIndex y
    let sqrty := Nat.sqrt y
    let threads ← idealNumThreads threads y (10 ^ 7)
    let threads := threads.toNat
    let _ ← fit 63 (y + threads)
    let distance ← ceilDiv y threads
    let ls ← forUp 0 threads [] (fun t (ls : List (List FOp)) => do
      let dt ← fit 63 (distance * t)
      let low ← fit 63 (1 + dt)
      let e ← fit 63 (low + distance)
      let high := min e y
      let ops ← region (thread sqrty low high)
      pure (ls ++ [ops]))
    (merge ls).foldlM (fun t o => o.2.apply tmax t) (Vec.mk' (size + 1) tmax)

/-- include/FactorTable.hpp:156-159. -/
def lpf (t : Vec ℕ) (index : ℕ) : M ℕ := t.rd index

/-- include/FactorTable.hpp:165-169. -/
def mu (t : Vec ℕ) (index : ℕ) : M ℤ := do
  let v ← t.rd index
  pure (if v % 2 = 1 then -1 else 1)

end FactorTable
end PS
