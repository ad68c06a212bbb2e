/-
Model of how a Garnet vector set becomes quantized: training, backfilling by several tasks, insertions and
removals meanwhile, restarts.

Source: /repo/diskann-garnet/src/provider.rs, fsm.rs, lib.rs

Simplifications: ids are natural numbers; an insertion is one step (the switch to quantized insertions waits for
insertions, C62), and so is a removal; insertions and removals do not fail here (C106); whether there is enough
data and training succeeds is an input; a quantizer maps each vector to a code (a failing compression is a failed
write), and loading it from storage gives the same quantizer.  One step of a task is one storage call or one
access to a shared variable.
-/
namespace Verif.Garnet.Quant

/-- A function changed at one place. -/
def upd {A : Type} (f : Nat → A) (i : Nat) (x : A) : Nat → A := fun j => if j = i then x else f j

/-- Where a backfill task is (provider.rs 641-714): before reading vector `i` (or counting itself, if `i` is not
below `stop`), before writing code `i`, as the last task before the code of the start point, before allowing
reuse, before the write of the state, or done with an answer. -/
inductive Pc (C : Type)
  | read (i stop : Nat)
  | write (i stop : Nat) (c : C)
  | point
  | reuse
  | rmw
  | done (ok : Bool)

/-- A running task: `n` is the number of tasks it was told, after the cut to the number of vectors. -/
structure Task (C : Type) where
  idx : Nat
  n : Nat
  pc : Pc C

/-- The records and the variables.  `disk` is the record of the quantizer: its first byte says whether the
backfill is complete.  `limit` is `max_id_for_backfill`, `none` for `u32::MAX`. -/
structure State (V C : Type) where
  vec : Nat → Option V
  code : Nat → Option C
  next : Nat
  disk : Option Bool
  trained : Bool
  all : Bool
  quant : Bool
  reuse : Bool
  limit : Option Nat
  completed : Nat
  startVec : Option V
  startCode : Option C
  tasks : List (Task C)

variable {V C : Type}

/-- `set_element` under an id that was handed out (provider.rs 1006-1083): the code is written if new ids are to
be quantized. -/
def insert (k : V → C) (s : State V C) (i : Nat) (v : V) : State V C :=
  { s with vec := upd s.vec i (some v), code := if s.quant then upd s.code i (some (k v)) else s.code,
           next := max s.next (i + 1) }

/-- `delete` (provider.rs 1086-1133). -/
def delete (s : State V C) (i : Nat) : State V C := { s with vec := upd s.vec i none, code := upd s.code i none }

/-- `train_quantizer` (provider.rs 497-588) and `enable_quantization` (fsm.rs 533-541); `data`: enough vectors and
training succeeds, `wrote`: the state is serialized and written. -/
def train (s : State V C) (data wrote : Bool) : State V C × Bool :=
  if s.trained then (s, false)
  else if !data then (s, false)
  else
    let s := { s with trained := true }
    if !wrote then (s, false)
    else ({ s with disk := some false, quant := true, limit := some (s.next - 1) }, true)

/-- The start of `backfill_quant_vectors` (provider.rs 595-639): `none` if it answers false. -/
def startTask (s : State V C) (idx count : Nat) : Option (Task C) :=
  match s.limit with
  | none => none
  | some l =>
    let n := min count (l + 1)
    if idx ≥ n then none
    else
      let work := (l + 1 + n - 1) / n
      some ⟨idx, n, .read (work * idx) (min (work * (idx + 1)) (l + 1))⟩

/-- One step of a task (provider.rs 645-714); `ok` is whether the storage call of this step succeeds. -/
def stepTask (k : V → C) (s : State V C) (t : Task C) (ok : Bool) : State V C × Pc C :=
  match t.pc with
  | .read i stop =>
    if i < stop then
      match s.vec i with
      | none => (s, .read (i + 1) stop)
      | some v => if ok then (s, .write i stop (k v)) else (s, .read (i + 1) stop)
    else
      ({ s with completed := s.completed + 1 }, if s.completed + 1 = t.n then .point else .done true)
  | .write i stop c => ((if ok then { s with code := upd s.code i (some c) } else s), .read (i + 1) stop)
  | .point =>
    match s.startVec with
    | none => (s, .reuse)
    | some v =>
      let s := if ok then { s with code := upd s.code 0 (some (k v)) } else s
      ({ s with startCode := some (k v) }, .reuse)
  | .reuse => ({ s with reuse := true }, .rmw)
  | .rmw => if ok then ({ s with disk := some true, all := true }, .done true) else (s, .done false)
  | .done b => (s, .done b)

/-- `GarnetProvider::new` for a quantizer that is trained (provider.rs 259-310), with `next_id` as loaded by the
free space map.  The answer is whether there is an index. -/
def restart (s : State V C) (next : Nat) : State V C × Bool :=
  let s := { s with next := next, trained := s.disk.isSome, all := false, quant := false, reuse := false, limit := none,
                    completed := 0, startVec := s.vec 0, startCode := none, tasks := [] }
  match s.disk with
  | none => (s, true)
  | some complete =>
    match s.code 0 with
    | none => (({ s with all := complete, quant := complete, reuse := complete } : State V C), !complete)
    | some c => ({ s with all := complete, quant := complete, reuse := complete, startCode := some c }, true)

/-- `quantization_needed` (provider.rs 809-817), what a restart tells Garnet. -/
def needed (required : Nat) (s : State V C) : Bool := !s.all && s.trained && decide (s.next - 1 > required)

/-- What can happen. -/
inductive Event (V : Type)
  | insert (i : Nat) (v : V)
  | delete (i : Nat)
  | train (data wrote : Bool)
  | start (idx count : Nat)
  | run (t : Nat) (ok : Bool)
  | restart (next : Nat)

/-- One event: the new state, and the answer of a call that ends with it. -/
def step (k : V → C) (s : State V C) : Event V → State V C × Option Bool
  | .insert i v => (insert k s i v, some true)
  | .delete i => (delete s i, some true)
  | .train data wrote => ((train s data wrote).1, some (train s data wrote).2)
  | .start idx count =>
    match startTask s idx count with
    | none => (s, some false)
    | some t => ({ s with tasks := s.tasks ++ [t] }, none)
  | .run t ok =>
    match s.tasks[t]? with
    | none => (s, none)
    | some th =>
      let (s', pc) := stepTask k s th ok
      ({ s' with tasks := s'.tasks.set t { th with pc := pc } }, match pc with | .done b => some b | _ => none)
  | .restart n => ((restart s n).1, some (restart s n).2)

/-- What the free space map allows (C31, C32, C62): ids of insertions are new, or free ones if reuse is allowed;
id zero is the start point; a restart finds `next_id` above all ids in use. -/
def Allowed (s : State V C) : Event V → Prop
  | .insert i _ => i ≠ 0 ∧ (i = s.next ∨ (s.reuse = true ∧ i < s.next ∧ s.vec i = none))
  | .delete i => i ≠ 0
  | .restart n => ∀ i, (s.vec i).isSome → i < n
  | _ => True

/-- A run of events. -/
inductive Run (k : V → C) : State V C → List (Event V) → State V C → Prop
  | nil (s) : Run k s [] s
  | cons {s e es t} : Allowed s e → Run k (step k s e).1 es t → Run k s (e :: es) t

/-- A set with a start point and nothing else. -/
def init (sp : V) : State V C where
  vec := fun i => if i = 0 then some sp else none
  code := fun _ => none
  next := 1
  disk := none
  trained := false
  all := false
  quant := false
  reuse := false
  limit := none
  completed := 0
  startVec := some sp
  startCode := none
  tasks := []

end Verif.Garnet.Quant
