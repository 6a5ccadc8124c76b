import Verif.Model.Resolver
import Verif.Spec.Json
import Verif.Spec.Response

/-!
# The errors array of a response

What an entry of the `errors` array has to look like: a message, and the locations or the path of the error.
Independent of the code that writes it.
-/

namespace Yarql
open Json

/-- the JSON string literal `lit` reads as the Go string `msg` (every invalid byte of `msg` reads as U+FFFD) -/
def Literal (msg lit : Bytes) : Prop := ∃ cs, Utf8.Reads msg cs ∧ JString lit cs

/-- the text of the entry for the error `e` -/
inductive ErrorEntry : Resolver.ReqErr → Bytes → Prop where
  | plain {msg lit} : Literal msg lit → ErrorEntry (.exec ⟨msg, none⟩) (b%"{\"message\":" ++ lit ++ b%"}")
  | path {msg lit path} : Literal msg lit → path ≠ [] →
      ErrorEntry (.exec ⟨msg, some path⟩) (b%"{\"message\":" ++ lit ++ b%",\"path\":[" ++ path ++ b%"]}")
  | emptyPath {msg lit} : Literal msg lit → ErrorEntry (.exec ⟨msg, some []⟩) (b%"{\"message\":" ++ lit ++ b%"}")
  | located {msg lit line column} : Literal msg lit →
      ErrorEntry (.located msg line column) (b%"{\"message\":" ++ lit ++ b%",\"locations\":[{\"line\":" ++ natDigits line ++
        b%",\"column\":" ++ natDigits column ++ b%"}]}")

/-- the entries, in order, separated by commas -/
inductive ErrorEntries : List Resolver.ReqErr → Bytes → Prop where
  | one {e t} : ErrorEntry e t → ErrorEntries [e] t
  | cons {e t es ts} : ErrorEntry e t → ErrorEntries es ts → ErrorEntries (e :: es) (t ++ [c%','] ++ ts)

end Yarql
