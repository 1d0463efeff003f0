import Verif.Table.ConfigProps

/-!
# Model of readers that are created for a stream

`AsciiReader` for a stream that the caller owns (`AsciiReader.cpp` 51-56) keeps a reference to it (`InstOrRefHolder.icpp` 45-56, 67-70): the position and the flags of the stream are
those that the caller and the other readers of the same stream see. A reader for the name of a file has a stream of its own (`InstOrRefHolder.icpp` 31-43, 59-65), which is what the
field `stream` of `Reader` is without this file.
-/

namespace Alexandria.Table

open Alexandria.Str

variable {F D : Type}

/-- What a call of a reader answers. -/
inductive Answer (F D : Type) where
  | done (u : Res Unit)
  | info (i : Res Info)
  | table (t : Res (TableT F D))
  | bool (b : Bool)
  | nat (n : Nat)
  | text (s : Bytes)

/-- A call with its answer; the functions of `AsciiReader.cpp` 58-260. -/
def Reader.ask (fmt : Fmt F D) (text : Bytes) (r : Reader) : Call → Reader × Answer F D
  | .comment s =>
    match r.setComment s with
    | .ok r' => (r', .done (.ok ()))
    | .throw e => (r, .done (.throw e))
    | .ub => (r, .done .ub)
  | .names l => ((r.fixNames l).1, .done (r.fixNames l).2)
  | .types l => ((r.fixTypes l).1, .done (r.fixTypes l).2)
  | .getInfo => ((r.readColumnInfo text).1, .info (r.readColumnInfo text).2)
  | .read n => ((r.read fmt text n).1, .table (r.read fmt text n).2)
  | .skip n => ((r.skip text n).1, .done (r.skip text n).2)
  | .hasMoreRows => ((r.hasMoreRows text).1, .bool (r.hasMoreRows text).2)
  | .rowsLeft => ((r.rowsLeft text).1, .nat (r.rowsLeft text).2)
  | .getComment => ((r.getComment text).1, .text (r.getComment text).2)

/-- The answers to a sequence of calls of one reader. -/
def Reader.asks (fmt : Fmt F D) (text : Bytes) : List Call → Reader → List (Answer F D)
  | [], _ => []
  | c :: cs, r => (r.ask fmt text c).2 :: Reader.asks fmt text cs (r.ask fmt text c).1

/-- A stream and the readers created for it, as many as one likes; the streams of the readers themselves are not used. -/
structure Shared where
  stream : Stream := {}
  readers : Nat → Reader := fun _ => {}

/-- A call of the reader `i`: `m_stream_holder->ref()` is the shared stream (`AsciiReader.cpp` 120, 184, 200, 238, 255, 259). -/
def Shared.ask (fmt : Fmt F D) (text : Bytes) (sh : Shared) (i : Nat) (c : Call) : Shared × Answer F D :=
  let x := ({ sh.readers i with stream := sh.stream } : Reader).ask fmt text c
  (⟨x.1.stream, fun j => if j = i then x.1 else sh.readers j⟩, x.2)

/-- The answers to calls of the readers. -/
def Shared.asks (fmt : Fmt F D) (text : Bytes) : List (Nat × Call) → Shared → List (Answer F D)
  | [], _ => []
  | c :: cs, sh => (sh.ask fmt text c.1 c.2).2 :: Shared.asks fmt text cs (sh.ask fmt text c.1 c.2).1

end Alexandria.Table
