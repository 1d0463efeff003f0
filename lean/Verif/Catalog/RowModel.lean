import Verif.Catalog.Model

/-!
# Model of attributes that keep the row of a source: `SourceCatalog/SourceAttributes/TableRowAttribute{,FromRow}.{h,cpp}`
-/

namespace Alexandria.Catalog

open Alexandria.Table

variable {F D A : Type}

/-- An attribute: a `TableRowAttribute` (`TableRowAttribute.h` 49-66) or one of another type. -/
inductive RowAttr (F D A : Type) where
  | row (r : RowT F D)
  | other (a : A)

/-- `TableRowAttributeFromRow::createAttribute` (`TableRowAttributeFromRow.cpp` 49-51) with the constructor (`TableRowAttribute.cpp` 46). -/
def keepRow (r : RowT F D) : Res (Option (RowAttr F D A)) := .ok (some (.row r))

/-- The handler of another attribute. -/
def otherMaker (m : RowT F D → Res (Option A)) (r : RowT F D) : Res (Option (RowAttr F D A)) := do
  let a ← m r
  return a.map .other

/-- The cast to `TableRowAttribute` of `getAttribute` (`Source.icpp` 30-42) and `getRow` (`TableRowAttribute.cpp` 48-50). -/
def asRow : RowAttr F D A → Option (RowT F D)
  | .row r => some r
  | .other _ => none

/-- `source.getAttribute<TableRowAttribute>()->getRow()`; nothing for a null pointer. -/
def Source.row (s : Source (RowAttr F D A)) : Option (RowT F D) := getAttribute asRow s.attributes

end Alexandria.Catalog
