import Verif.Json.Encoder
import Verif.Json.Spec
import Verif.Json.Combinators
/-
Facts about the concrete field table, evaluated by the kernel (the table is finite and fixed; nothing here ranges
over records).
-/
namespace Verif.Json
open Verif.Decimal (Str)
open Verif.FlatRecord

/-- Fields that the loop treats at all. -/
def treated (fv : FieldEntry) : Bool := (fieldSects fv).length == 2 || fv.sect != .SectNone

set_option maxRecDepth 100000 in
theorem fields_in_order :
    fieldValues.filter treated = Spec.general ++ Spec.order.flatMap Spec.fieldsOf := by decide +kernel

/-- Combinations of mapper, index and type in the table. -/
def shapeOk (e : FieldEntry) : Bool :=
  match e.map, e.flatIndex, e.mtype with
  | .str a, .str b, .MapStrVal => a == b
  | .path a, .str b, .MapStrVal => a == b && e.name == "sf.file.newpath".toList
  | .int a, .int b, .MapIntVal => a == b && !Spec.isFlagField e.name
  | .int a, .int b, .MapBoolVal => a == b && Spec.isFlagField e.name
  | .recType, .int _, .MapSpecialStr => true
  | .oid _, .int _, .MapSpecialStr => true
  | .name _, .str _, .MapSpecialStr => true
  | .join _ _, .str _, .MapSpecialStr => true
  | .path _, .str _, .MapSpecialStr => e.name != "sf.file.newpath".toList
  | .symlink _, .str _, .MapSpecialStr => true
  | .dir _, .str _, .MapSpecialStr => true
  | .fileType _, .int _, .MapSpecialStr => true
  | .contType _, .int _, .MapSpecialStr => true
  | .action _, .int _, .MapSpecialStr => true
  | .kind _, .int _, .MapSpecialStr => true
  | .ip [_], .int _, .MapSpecialStr => true
  | .ret, .int _, .MapSpecialInt => true
  | .endTs, .int _, .MapSpecialInt => true
  | .sum _, .int _, .MapSpecialInt => true
  | .isOpenWrite _, .int _, .MapSpecialBool => true
  | .isOpenRead _, .int _, .MapSpecialBool => true
  | .opFlags, .int .OPFLAGS_INT, .MapArrayStr => true
  | .openFlags .FL_FILE_OPENFLAGS_INT, .int .FL_FILE_OPENFLAGS_INT, .MapArrayStr => e.sect == .SectFile
  | .port [.FL_NETW_SPORT_INT, .FL_NETW_DPORT_INT], .int .FL_NETW_SPORT_INT, .MapArrayStr => true
  | .ip [.FL_NETW_SIP_INT, .FL_NETW_DIP_INT], .int .FL_NETW_SIP_INT, .MapArrayStr => e.sect == .SectNet
  | .intArray .POD_HOSTIP_ANY, .any .POD_HOSTIP_ANY, .MapArrayInt => e.sect == .SectPod
  | .intArray .POD_INTERNALIP_ANY, .any .POD_INTERNALIP_ANY, .MapArrayInt => e.sect == .SectPod
  | .svcArray .POD_SERVICES_ANY, .any .POD_SERVICES_ANY, .MapArraySvc => e.sect == .SectPod
  | .cached _, .A_IDS, _ => e.sect == .SectProc
  | .cached _, .PARENT_IDS, _ => e.sect == .SectPProc
  | _, _, _ => false

set_option maxRecDepth 100000 in
theorem shapes : ∀ e ∈ exportedMappers, shapeOk e = true := by decide +kernel

set_option maxRecDepth 100000 in
/-- The key of every field needs no escaping and is the component that the encoder writes. -/
theorem keys_ok : ∀ e ∈ exportedMappers, escape (tx (Spec.key e)) = tx (Spec.key e) ∧
    ((fieldSects e).length = 2 ∧ e.sect = .SectNone ∧ ((fieldSects e)[1]?).map attrName = some (Spec.key e) ∨
     (fieldSects e).length = 3 ∧ ((fieldSects e)[2]?).map attrName = some (Spec.key e)) := by decide +kernel

theorem titles_ok : ∀ s ∈ Spec.order, escape (tx (Spec.title s)) = tx (Spec.title s) ∧ Spec.fieldsOf s ≠ [] := by decide +kernel

theorem mem_insertField (a x : FieldEntry) (l : List FieldEntry) : x ∈ insertField a l ↔ x = a ∨ x ∈ l := by
  induction l with
  | nil => simp [insertField]
  | cons b bs ih =>
    simp only [insertField]
    split
    · simp
    · simp only [List.mem_cons, ih]
      constructor
      · rintro (h | h | h)
        · exact .inr (.inl h)
        · exact .inl h
        · exact .inr (.inr h)
      · rintro (h | h | h)
        · exact .inr (.inl h)
        · exact .inl h
        · exact .inr (.inr h)

theorem mem_fieldValues (x : FieldEntry) : x ∈ fieldValues ↔ x ∈ exportedMappers := by
  unfold fieldValues
  generalize exportedMappers = l
  induction l with
  | nil => simp
  | cons a l ih => simp only [List.foldr_cons, mem_insertField, ih, List.mem_cons]

theorem mem_insertByName (a x : FieldEntry) (l : List FieldEntry) : x ∈ Spec.insertByName a l ↔ x = a ∨ x ∈ l := by
  induction l with
  | nil => simp [Spec.insertByName]
  | cons b bs ih =>
    simp only [Spec.insertByName]
    split
    · simp
    · simp only [List.mem_cons, ih]
      constructor
      · rintro (h | h | h)
        · exact .inr (.inl h)
        · exact .inl h
        · exact .inr (.inr h)
      · rintro (h | h | h)
        · exact .inr (.inl h)
        · exact .inl h
        · exact .inr (.inr h)

theorem mem_byName (x : FieldEntry) (l : List FieldEntry) : x ∈ Spec.byName l ↔ x ∈ l := by
  unfold Spec.byName
  induction l with
  | nil => simp
  | cons a l ih => simp only [List.foldr_cons, mem_insertByName, ih, List.mem_cons]

theorem mem_general (x : FieldEntry) : x ∈ Spec.general ↔ x ∈ exportedMappers ∧ (Spec.parts x).length = 2 := by
  unfold Spec.general
  rw [mem_byName, List.mem_filter]; simp

theorem mem_fieldsOf (x : FieldEntry) (s : SectType) :
    x ∈ Spec.fieldsOf s ↔ x ∈ exportedMappers ∧ (Spec.parts x).length = 3 ∧ x.sect = s := by
  unfold Spec.fieldsOf
  rw [mem_byName, List.mem_filter]; simp

end Verif.Json
