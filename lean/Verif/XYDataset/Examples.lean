import Verif.XYDataset.ProviderProps
import Verif.XYDataset.DecimalProps
import Verif.XYDataset.EndlessProps
import Verif.XYDataset.Props3

/-! # Cases that meet all hypotheses of the theorems about data sets -/

namespace Alexandria.XYDataset.Examples

open Str Alexandria.Table

/-- A root with the data set `first` in a file and the data set `flux` in a file of a directory. -/
def disk : Disk := exDisk "# first\n1 2\n".toList "# NAME : flux\n# unit: Jy\n1 5\n2 7\n".toList

def parser : Parser := asciiParser isNat disk

theorem opened : ∃ p, mkProvider disk parser 3 ("r".toList ++ List.replicate 2 '/') = .ok p ∧ p.names.map (·.qname) = ["first".toList, "s/flux".toList] :=
  ⟨match mkProvider disk parser 3 ("r".toList ++ List.replicate 2 '/') with | .ok p => p | _ => ⟨[], []⟩, by decide +kernel, by decide +kernel⟩

theorem flux : IsDataset disk.fs parser ("r".toList ++ ['/']) "r/s/b.txt".toList "flux".toList :=
  ⟨.sub _ ['s'] _ (by decide +kernel) (by decide +kernel) (.file "r/s".toList "b.txt".toList (by decide +kernel) (by decide +kernel)),
    by decide +kernel, by decide +kernel, by decide +kernel, by decide⟩

theorem located : Spec.Located ("r".toList ++ ['/']) "r/s/b.txt".toList [['s']] :=
  ⟨"b.txt".toList, ⟨by decide, by decide⟩, by simp only [List.mem_singleton, forall_eq]; exact ⟨by decide, by decide⟩, by decide +kernel⟩

example := C118_found disk exFs_tree parser 3 "r".toList 2 (by decide) (by decide) _ opened.choose_spec.1 _ _ flux _ located
example := C118_opens disk exFs_tree parser 3 "r".toList 2 (by decide) (by decide) (by decide +kernel)
example := (C118_ascii AsciiIO.natFmt isNat disk exFs_tree 3 "r".toList 2 (by decide) (by decide) _ opened.choose_spec.1).1 _ _ "flux".toList _ flux.1 (by decide +kernel) rfl
  (by decide +kernel) (by decide +kernel) (by decide) located

/-- A directory that names itself in `order.txt`. -/
example := C83_dot ⟨fun _ => [], fun _ => some ["# all".toList, ". # again".toList], fun _ _ => true, fun _ => true, fun _ => false⟩ "r".toList _ rfl ". # again".toList
  (by decide) (by decide) (fun _ => ⟨rfl, rfl, rfl⟩)

example := C83_order_partial ⟨fun _ => [['a'], ['b'], ['c']], fun _ => some ["c # last".toList, "b".toList, "d".toList], fun _ n => n == ['b'] || n == ['c'],
  fun _ => false, fun _ => true⟩ "r".toList (by decide) (by decide) (by decide)

example := C86_file_name "/a/b.c".toList "sed.v1".toList "txt".toList (by decide) (by decide) (by decide)

def a : QName := ⟨["a".toList, "bc".toList], "d".toList, "a/bc/d".toList, 0⟩
def b : QName := ⟨["a".toList], "e".toList, "a/e".toList, 3⟩
def c : QName := ⟨[], "f".toList, "f".toList, 1⟩

theorem valid : a.Valid List.length ∧ b.Valid List.length ∧ c.Valid List.length :=
  ⟨(mkName_valid (q := a) (gs := ["a".toList, "bc".toList]) (n := "d".toList) (by decide)).1,
    ⟨by simp only [b, List.mem_singleton, forall_eq]; exact ⟨by decide, by decide⟩, ⟨by decide, by decide⟩, by decide, .inr (by decide)⟩,
    ⟨by simp [c], ⟨by decide, by decide⟩, by decide, .inr (by decide)⟩⟩

example := C28_order List.length a b c valid.1 valid.2.1 valid.2.2

/-- The points of a file with a plain header. -/
def points : List (Rat × Rat) := [(1 / 2, 3), (Binary.rnd 53 (1 / 10), -2)]

theorem plain : AsciiIO.Spec.PlainHeader (AsciiIO.Spec.fileText 17 [" NAME : a".toList] points) := by
  have hc : headerComments ['#'] (AsciiIO.Spec.fileText 17 [" NAME : a".toList] points) = ["NAME : a".toList] := by decide +kernel
  have hl : lastWords ["NAME : a".toList] = ["NAME".toList, [':'], ['a']] := by decide +kernel
  refine ⟨by rw [hc]; decide, fun a b h => ?_⟩
  rw [hc, hl] at h
  cases h

example := AsciiIO.C139_file 17 (by decide) [" NAME : a".toList] (by decide) points (by simp [points]) (by
    simp only [points, List.mem_cons, List.not_mem_nil, or_false]
    rintro p (rfl | rfl)
    · exact ⟨⟨1, -1, by decide, by norm_num⟩, ⟨3, 0, by decide, by norm_num⟩⟩
    · exact ⟨Binary.rnd_rep (by decide) _, ⟨-2, 0, by decide, by norm_num⟩⟩) plain

end Alexandria.XYDataset.Examples
