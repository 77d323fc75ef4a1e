import Verif.Thread.Machine
/-
C97, C98: the functions of `jm::Thread` and `jm::Mutex` (Linux, macOS) in instructions of the machine.
-/
namespace Verif.Thread

/-- Thread.cpp:135-151 `lock`, `unlock` around a piece of work; Mutex.cpp:57-78 -/
def criticalSection (n : Nat) : List Instr := .lock :: List.replicate n .work ++ [.unlock]

/-- Thread.cpp:153-164 `sleep()`; Mutex.cpp:80-92 -/
def sleep : List Instr := [.lock, .wait, .unlock]

/-- Thread.cpp:110-133 `sleep(millis)`; the computation of the time in `Verif.Thread.deadline` -/
def sleepFor : List Instr := [.lock, .timedWait, .unlock]

/-- Thread.cpp:166-173 `wakeUp`; Mutex.cpp:94-104 -/
def wakeUp : List Instr := [.signal]

/-- Thread.cpp:188-203 `isAlive` -/
def isAlive : List Instr := [.lock, .get, .unlock]

/-- Thread.cpp:175-186 `interrupt` -/
def interrupt : List Instr := [.lock, .set false, .unlock, .signal, .join]

/-- Thread.cpp:94-107 `start` -/
def start : List Instr := [.spawn]

/-- Thread.cpp:38-45 `StartThread`, before it calls `run()` -/
def startThread : List Instr := [.lock, .set true, .unlock]

/-- what any thread may call on a thread object as often as it likes -/
inductive Call where
  | critical (n : Nat)
  | sleep
  | sleepFor
  | wakeUp
  | isAlive
  | work
deriving DecidableEq

def Call.code : Call → List Instr
  | .critical n => criticalSection n
  | .sleep => Thread.sleep
  | .sleepFor => Thread.sleepFor
  | .wakeUp => Thread.wakeUp
  | .isAlive => Thread.isAlive
  | .work => [.work]

def codes (l : List Call) : List Instr := l.flatMap Call.code

/-- `run()` of the worker as Thread.h:154-159 asks for it: something, `while(isAlive()) { body }`, something -/
structure Worker where
  before : List Call
  body : List Call
  after : List Call

/-- the loop as the machine repeats it: the body, then the question -/
def Worker.loop (w : Worker) : List Instr := codes w.body ++ isAlive

/-- Thread.cpp:38-48: the whole life of the worker -/
def Worker.code (w : Worker) : List Instr := startThread ++ (codes w.before ++ isAlive ++ .again :: codes w.after)

/-- a program: the worker; one thread that starts it, does other things, interrupts it, does other things; any number of other
threads -/
structure Program where
  worker : Worker
  master : List Call × List Call × List Call
  others : List (List Call)

/-- thread 0 is the worker, thread 1 the master -/
def Program.code (p : Program) : Nat → List Instr
  | 0 => p.worker.code
  | 1 => codes p.master.1 ++ start ++ codes p.master.2.1 ++ interrupt ++ codes p.master.2.2
  | n + 2 => codes (p.others.getD n [])

def Program.init (p : Program) : St := initial p.code

/-- every state a schedule can lead to -/
def Program.Reaches (p : Program) (s s' : St) : Prop := ∃ l, Thread.run p.worker.loop s l = some s'

end Verif.Thread
