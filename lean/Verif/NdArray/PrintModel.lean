import Verif.NdArray.IterModel
import Verif.Common.Strings

/-!
# Model of the output of an `NdArray` to a stream (`NdArray/NdArray/_impl/NdArray.icpp` 491-510)

How an element is written is a parameter. The flags and errors of the stream are left out.
-/

namespace Alexandria.NdArray

open Alexandria.Str

variable {T : Type}

/-- The loop over the dimensions (`NdArray.icpp` 497-501). Without dimensions the bound of the loop wraps around, and elements that do not exist are read. -/
def printDims : List Nat → Res Bytes
  | [] => .ub
  | [n] => .ok (showNat n)
  | n :: m :: l => do
    let r ← printDims (m :: l)
    return showNat n ++ ',' :: r

/-- The loop over the elements and the last element (`NdArray.icpp` 504-507) with at most `fuel` tests of the condition. -/
def printElems (pr : T → Bytes) (h : Heap T) : Nat → Iter → Iter → Option (Res Bytes)
  | 0, _, _ => none
  | fuel + 1, it, last =>
    match it.read h 0 with
    | .throw e => some (.throw e)
    | .ub => some .ub
    | .ok x =>
      if it.eq last then some (.ok (pr x))
      else (printElems pr h fuel it.inc last).map fun rest => do
        let rest ← rest
        return pr x ++ ',' :: rest

/-- `operator<<` (`NdArray.icpp` 491-510): what is written, with at most `fuel` tests of the condition of the second loop. The text before an exception is left out, there is none. -/
def printNd (pr : T → Bytes) (h : Heap T) (a : Nd) (fuel : Nat) : Option (Res Bytes) :=
  if a.size = 0 then some (.ok [])
  else match printDims a.shape, a.begin, a.last with
    | .ok dims, .ok b, .ok e =>
      match e.sub 1 with
      | .ok e => (printElems pr h fuel b e).map fun r => do
        let r ← r
        return '<' :: (dims ++ '>' :: r)
      | .throw x => some (.throw x)
      | .ub => some .ub
    | _, _, _ => some .ub

end Alexandria.NdArray
