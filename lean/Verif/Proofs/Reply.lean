import Verif.Proofs.Num
import Verif.Spec.ReplySpec
import Verif.Model.Db
/-! The reply functions produce the encodings of RESP. -/
set_option linter.unusedSectionVars false
set_option linter.unusedSimpArgs false
set_option linter.unusedVariables false
namespace Metis
open Spec

theorem itoa_dec (n : Int) : itoa n = decI n := by
  unfold itoa decI
  simp only [natToa_dec]

theorem says_simple (s : Bytes) : Says (Reply.simple s) (.status s) := by simp [Says, Reply.simple, Value.encode, Reply.nl, CRLF]
theorem says_ok : Says Reply.ok (.status b!"OK") := by simp [Says, Reply.ok, Value.encode, CRLF]
theorem says_null : Says Reply.null .null := by simp [Says, Reply.null, Value.encode, CRLF]
theorem says_error (s : Bytes) : Says (Reply.error s) (.err (b!"ERR " ++ s)) := by simp [Says, Reply.error, Value.encode, Reply.nl, CRLF]
theorem says_int (n : Int) : Says (Reply.int n) (.int n) := by simp [Says, Reply.int, Value.encode, Reply.nl, CRLF, itoa_dec]
theorem flat_bulk (b : Bytes) : (Reply.bulk b).flatten = Spec.bulk b := by simp [Reply.bulk, Spec.bulk, Reply.nl, CRLF, natToa_dec]
theorem says_bulk (b : Bytes) : Says (Reply.bulk b) (.bulk b) := by simp [Says, flat_bulk, Value.encode]

theorem flat_bulks : ∀ (l : List Bytes), ((l.map Reply.bulk).flatten).flatten = (l.map Spec.bulk).flatten
  | [] => rfl
  | a :: l => by simp [flat_bulks l, flat_bulk]

theorem says_array (l : List Bytes) : Says (Reply.array l) (.arr l) := by
  simp only [Says, Reply.array, Value.encode, List.flatten_append, flat_bulks]
  have : itoa (l.length : Int) = dec l.length := by rw [itoa_dec]; unfold decI; rw [if_neg (by omega)]; simp
  simp [Reply.header, Reply.nl, CRLF, this]

end Metis
