/-
C97, C98: threads that share one mutex, one condition variable and one flag (`jm::Thread`, `jm::Mutex`), as POSIX describes
them.  One instruction is one atomic step; the schedule says who is next.  Reads and writes of the flag are single
steps: `Verif.Thread.Props.no_data_race` shows that they never happen at the same time, so nothing is lost by that.
Memory is sequentially consistent.
-/
namespace Verif.Thread

/-- what one step of a thread does -/
inductive Instr where
  /-- `pthread_mutex_lock`; the default kind of mutex: a thread that locks it twice waits for itself -/
  | lock
  /-- `pthread_mutex_unlock` -/
  | unlock
  /-- `pthread_cond_wait`: gives the mutex back and sleeps, in one step -/
  | wait
  /-- `pthread_cond_timedwait` -/
  | timedWait
  /-- `pthread_cond_signal`: wakes one thread that sleeps, if there is one -/
  | signal
  /-- `alive = b` -/
  | set (b : Bool)
  /-- `ret = alive` -/
  | get
  /-- end of the body of `while(isAlive()) …`: when the last `ret` was true the body comes again -/
  | again
  /-- `pthread_create` of the worker -/
  | spawn
  /-- `pthread_join` with the worker -/
  | join
  /-- anything that has nothing to do with the shared data -/
  | work
deriving DecidableEq, Repr

/-- a thread that goes on, that sleeps (possibly only for some time), that was woken and needs the mutex again -/
inductive Status where
  | ready
  | asleep (timed : Bool)
  | woken
deriving DecidableEq, Repr

structure Th where
  rest : List Instr
  ret : Bool
  status : Status
deriving DecidableEq, Repr

/-- thread 0 is the worker, the one `Thread::start` begins -/
structure St where
  alive : Bool
  owner : Option Nat
  started : Bool
  joined : Bool
  sleepers : List Nat
  ths : Nat → Th

/-- the choice of the scheduler: a step (with the position of the sleeper a `signal` wakes), the end of a timed wait, a
wake up without reason (POSIX allows them but does not promise them) -/
inductive Choice where
  | run (i : Nat)
  | timeout
  | spurious
deriving DecidableEq, Repr

inductive Outcome where
  | blocked
  | ub
  | next (s : St)

def upd (f : Nat → Th) (t : Nat) (x : Th) : Nat → Th := fun u => if u = t then x else f u

/-- a thread goes on with `k` -/
def St.goOn (s : St) (t : Nat) (k : List Instr) : St := { s with ths := upd s.ths t { s.ths t with rest := k } }

/-- a sleeping thread is woken: it still needs the mutex -/
def St.wakes (s : St) (t : Nat) : St :=
  { s with sleepers := s.sleepers.erase t, ths := upd s.ths t { s.ths t with status := .woken } }

/-- `unlock`: of a mutex somebody else has, it is undefined -/
def unlockStep (s : St) (t : Nat) (k : List Instr) : Outcome :=
  if s.owner = some t then .next { s.goOn t k with owner := none } else .ub

/-- `wait`: undefined without the mutex -/
def waitStep (timed : Bool) (s : St) (t : Nat) (k : List Instr) : Outcome :=
  if s.owner = some t then
    .next { s with owner := none, sleepers := s.sleepers ++ [t], ths := upd s.ths t ⟨k, (s.ths t).ret, .asleep timed⟩ }
  else .ub

/-- `signal` with the sleeper at position `i`; without sleepers nothing happens -/
def signalStep (s : St) (t : Nat) (k : List Instr) (i : Nat) : Outcome :=
  if s.sleepers = [] then .next (s.goOn t k)
  else match s.sleepers[i]? with
    | some w => .next ((s.wakes w).goOn t k)
    | none => .blocked

/-- `while(isAlive())`: the body once more, or on -/
def againStep (body : List Instr) (s : St) (t : Nat) (k : List Instr) : Outcome :=
  if (s.ths t).ret then .next (s.goOn t (body ++ .again :: k)) else .next (s.goOn t k)

/-- the worker has returned -/
def St.over (s : St) : Prop := s.started = true ∧ (s.ths 0).rest = [] ∧ (s.ths 0).status = .ready

instance (s : St) : Decidable s.over := by unfold St.over; infer_instance

/-- a worker that was never started, or was joined before, cannot be joined -/
def joinStep (s : St) (t : Nat) (k : List Instr) : Outcome :=
  if s.started = false ∨ s.joined = true then .ub
  else if s.over then .next { s.goOn t k with joined := true } else .blocked

/-- the next instruction of a thread that is ready; starting the worker twice is not modelled (`ub`) -/
def readyStep (body : List Instr) (s : St) (t : Nat) (i : Nat) : List Instr → Outcome
  | [] => .blocked
  | .lock :: k => if s.owner = none then .next { s.goOn t k with owner := some t } else .blocked
  | .unlock :: k => unlockStep s t k
  | .wait :: k => waitStep false s t k
  | .timedWait :: k => waitStep true s t k
  | .signal :: k => signalStep s t k i
  | .set b :: k => .next { s.goOn t k with alive := b }
  | .get :: k => .next { s with ths := upd s.ths t ⟨k, s.alive, .ready⟩ }
  | .again :: k => againStep body s t k
  | .spawn :: k => if s.started then .ub else .next { s.goOn t k with started := true }
  | .join :: k => joinStep s t k
  | .work :: k => .next (s.goOn t k)

/-- one step of thread `t` -/
def step (body : List Instr) (s : St) (t : Nat) (c : Choice) : Outcome :=
  match (s.ths t).status, c with
  | .ready, .run i => if t = 0 ∧ s.started = false then .blocked else readyStep body s t i (s.ths t).rest
  | .asleep true, .timeout => .next (s.wakes t)
  | .asleep _, .spurious => .next (s.wakes t)
  | .woken, .run _ => if s.owner = none then .next { s with owner := some t, ths := upd s.ths t { s.ths t with status := .ready } } else .blocked
  | _, _ => .blocked

/-- a schedule, from the left; `none` when a step was not possible or undefined -/
def run (body : List Instr) (s : St) : List (Nat × Choice) → Option St
  | [] => some s
  | (t, c) :: l =>
    match step body s t c with
    | .next s' => run body s' l
    | _ => none

/-- before anything has happened -/
def initial (code : Nat → List Instr) : St := ⟨false, none, false, false, [], fun t => ⟨code t, false, .ready⟩⟩

/-- nobody can do anything (wake ups without reason do not count) -/
def Stuck (body : List Instr) (s : St) : Prop := ∀ t i, step body s t (.run i) = .blocked ∧ step body s t .timeout = .blocked

theorem run_append (body : List Instr) (s : St) (a b : List (Nat × Choice)) :
    run body s (a ++ b) = (run body s a).bind (fun s => run body s b) := by
  induction a generalizing s with
  | nil => rfl
  | cons x a ih =>
    simp only [List.cons_append, run]
    cases step body s x.1 x.2 with
    | next s' => exact ih s'
    | _ => rfl

end Verif.Thread
