import Verif.Exporter.Model
/-
Specification of the export stage (C42-C44): what a user sees, without the loop.
-/
namespace Verif.Exporter

/-- The records received before the input was closed. -/
def received {R : Type} : List (Ev R) → List R
  | [] => []
  | .recv r _ :: es => r :: received es
  | .close :: _ => []
  | .tick _ _ :: es => received es

/-- Has the input been closed? -/
def closed {R : Type} : List (Ev R) → Bool
  | [] => false
  | .close :: _ => true
  | .recv _ _ :: es => closed es
  | .tick _ _ :: es => closed es

/-- The clock readings of an event. -/
def readings {R : Type} : Ev R → List Int
  | .recv _ a => [a]
  | .close => []
  | .tick n a => [n, a]

/-- The data a batch contributes to the transport: nothing if encoding fails or yields nothing. -/
def payload {R D : Type} (C : Codec R D) (b : List R) : Option (List D) :=
  match C.encode b with
  | some (d :: ds) => some (d :: ds)
  | _ => none

/-- A log with one line per datum. -/
def logOf (ds : List Datum) : Bytes := ds.flatMap (fun d => d.text ++ [newline])

/-- Splitting a text into its newline-terminated lines (a trailing unterminated piece is dropped). -/
def linesOf : Bytes → Bytes → List Bytes
  | _, [] => []
  | cur, c :: cs => if c = newline then cur :: linesOf [] cs else linesOf (cur ++ [c]) cs

end Verif.Exporter
