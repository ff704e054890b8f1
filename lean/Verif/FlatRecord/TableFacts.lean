import Verif.FlatRecord.Props
/-! Facts about the concrete field table, checked by the kernel entry by entry (the table is finite;
nothing here ranges over records). -/
namespace Verif.FlatRecord
open Verif.Decimal (Str)

/-- The 143 field names are pairwise distinct, so every entry is reachable under its own name. -/
theorem field_table_sound :
    (∀ e ∈ exportedMappers, getMappers.get e.name = some e.map) ∧
    (∀ e ∈ nonExportedMappers, getMappers.get e.1 = some e.2) ∧
    getMappers.length = exportedMappers.length + nonExportedMappers.length := by
  decide +kernel

/-- No field name contains an opening bracket or parses as a number. -/
theorem field_names_plain :
    ∀ e ∈ getMappers, '[' ∉ e.1 ∧ (Decimal.parseInt e.1).2 = false ∧ e.1 ≠ [] := by
  decide +kernel

end Verif.FlatRecord
