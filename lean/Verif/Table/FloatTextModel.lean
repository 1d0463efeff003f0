import Verif.Table.AsciiModel
import Verif.Common.FloatText

/-!
# Model of the floating point cells of ASCII tables

`ToStringVisitor` (`Table/src/lib/AsciiWriterHelper.h` 84-89) writes a cell with `q << from` to a new `std::stringstream`, whose precision is 6 digits; nothing
in the code changes it. `convertToCellType` (`Table/src/lib/AsciiReaderHelper.cpp` 297-300) reads with `boost::lexical_cast<float>` and `<double>`. Elements of
vectors and arrays are written and read in the same way.
-/

namespace Alexandria.Table

/-- The text form of `float` (24 bits) and `double` (53 bits), as rational numbers; see `Verif/Common/FloatText.lean` for what is not modelled. -/
def machineFmt : Fmt Rat Rat := ⟨⟨FloatText.print 6, FloatText.parse 24⟩, ⟨FloatText.print 6, FloatText.parse 53⟩⟩

end Alexandria.Table
