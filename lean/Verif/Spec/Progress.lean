import Verif.Model.Run
/-!
# Specification: calls which consume a part of the document
-/

namespace Verif.Progress
open Reader

/-- Methods which, when successful, have consumed something: a value, a member name, or the start or end of an array or object -/
def consumes : Op → Bool
  | .beginArray | .endArray | .beginObject | .endObject | .nextName | .nextNameOwned | .skipName | .nextString | .nextStr | .stringReader _
  | .nextNumberAsStr | .nextNumberAsString | .nextBool | .nextNull | .skipValue => true
  | .peek | .hasNext | .skipToTopLevel | .seekTo _ | .seekBack _ | .currentPosition _ | .consumeTrailingWhitespace => false

/-- Number of successful calls of such methods -/
def count : List Op → List (Except RErr Out) → Nat
  | op :: ops, .ok _ :: rs => (if consumes op then 1 else 0) + count ops rs
  | _ :: ops, .error _ :: rs => count ops rs
  | _, _ => 0

/-- Methods which end with the closing `"` of a member name or string -/
def quoted : Op → Bool
  | .nextName | .nextNameOwned | .skipName | .nextString | .nextStr => true
  | _ => false

/-- Methods which end with `[`, `]`, `{` or `}` -/
def bracketed : Op → Bool
  | .beginArray | .endArray | .beginObject | .endObject => true
  | _ => false

/-- Methods which look at what comes next without consuming it -/
def looking : Op → Bool
  | .peek | .hasNext | .currentPosition _ => true
  | _ => false

end Verif.Progress
