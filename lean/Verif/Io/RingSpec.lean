import Verif.Io.RingModel
/-
What a user of the readers relies on.
-/
namespace Verif.Io

variable {B : Type}

/-- The bytes of a file a request asks for. -/
def wanted (file : List B) (q : Req) : List B := (file.drop q.off).take q.len

/-- Nothing is pushed, worked at or left over. -/
def Idle (r : Ring B) : Prop := r.sq = [] ∧ r.flight = [] ∧ r.cq = []

/-- Each request has its own buffer, of the length it says. -/
def Fit (r : Ring B) (reqs : List Req) : Prop :=
  (reqs.map Req.buf).Nodup ∧ ∀ q ∈ reqs, (r.mem q.buf).length = q.len

/-- No errors, no short reads, no signals. -/
def clean : Env := ⟨fun q c => c = q.len, false, false⟩

/-- Short reads exactly at the end of the file, no errors, no signals. -/
def endOfFile (file : List B) : Env := ⟨fun q c => c = (min q.len (file.length - q.off) : Nat), false, false⟩

/-- Anything. -/
def any : Env := ⟨fun _ _ => True, true, true⟩

/-- Any results, but no signals. -/
def noSignal : Env := ⟨fun _ _ => True, false, true⟩

end Verif.Io
