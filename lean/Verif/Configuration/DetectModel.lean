import Verif.Configuration.Model

/-!
# The detection of the catalogue format with the memory around its buffer

`autoDetect` of `Model.lean` has the outcome `ub` as soon as a byte is used that was not read from the file.  Here the buffer and what lies behind it have some
content, as they have on a machine.
-/

namespace Alexandria.Configuration

open Alexandria.Str

/-- `autoDetectFormatType` (`CatalogConfig.cpp` 94-109): `stack` is what the memory contains from the beginning of the array on, before the file is read; the 80
bytes of the array are its first 80.  `in.read` overwrites as many of them as the file has, the string ends at the first null byte from the beginning of the
array on.  Without any null byte in `stack` behind the bytes read, its end is passed: `ub`. -/
def autoDetectIn (stack content : Bytes) : Res Bool :=
  let memory := content.take 80 ++ stack.drop (content.take 80).length
  if Char.ofNat 0 ∈ memory then .ok (decide ((memory.takeWhile (· ≠ Char.ofNat 0)).take 9 = simpleCard))
  else .ub

end Alexandria.Configuration
