/-! # Locks between threads (`src/base/set_user_lock.F90`)

Several threads call `set_user_lock` with the same variable; each access to it is one step, and the steps of the
threads come in any order.  Accesses are taken to be atomic and in the order of the program.  `depth` counts the
successful calls of each thread. -/

namespace Verif.UserLock

/-- Where a thread is: outside, at the head of the loop, after the first and after the second read
(set_user_lock.F90:23-25). -/
inductive Pc where
  | out
  | want (lock : Bool)
  | one (lock : Bool) (owner : BitVec 32)
  | two (lock : Bool) (owner count : BitVec 32)
deriving DecidableEq, Repr

/-- The lock variable, the threads, and whether the program has been ended. -/
structure Sys where
  lock : BitVec 32
  pc : Nat → Pc
  depth : Nat → Nat
  dead : Bool

/-- The lock of `date_thread_lock` at the start (moduledate.f90:30). -/
def start : Sys := ⟨0, fun _ => .out, fun _ => 0, false⟩

/-- `current_pid` (set_user_lock.F90:17-19). -/
def pid (t : Nat) : BitVec 32 := BitVec.ofNat 32 t &&& 0xFFFFFF

/-- A function changed at one place. -/
def upd {α : Type} (f : Nat → α) (t : Nat) (v : α) : Nat → α := fun u => if u = t then v else f u

/-- The end of a turn that wants the lock (set_user_lock.F90:29-35). -/
def acquire (s : Sys) (t : Nat) (owner count : BitVec 32) : Sys :=
  if count = 0 ∨ owner = pid t then
    { s with lock := pid t + (count + 1) <<< 24, pc := upd s.pc t .out, depth := upd s.depth t (s.depth t + 1) }
  else { s with pc := upd s.pc t (.want true) }

/-- The end of a turn that gives the lock back (set_user_lock.F90:39-53). -/
def release (s : Sys) (t : Nat) (owner count : BitVec 32) : Sys :=
  if pid t ≠ owner ∧ 0 < s.lock.toInt then { s with dead := true }
  else
    { s with
      lock := if (count - 1).toInt ≤ 0 then 0 else pid t + (count - 1) <<< 24
      pc := upd s.pc t .out
      depth := upd s.depth t (s.depth t - 1) }

/-- One step of a thread inside `set_user_lock`. -/
def go (s : Sys) (t : Nat) : Sys :=
  if s.dead then s
  else
    match s.pc t with
    | .out => s
    | .want b => { s with pc := upd s.pc t (.one b (s.lock &&& 0xFFFFFF)) }
    | .one b p => { s with pc := upd s.pc t (.two b p ((s.lock >>> 24) &&& 127)) }
    | .two true p c => acquire s t p c
    | .two false p c => release s t p c

/-- A call, for a thread that is outside. -/
def call (s : Sys) (t : Nat) (b : Bool) : Sys :=
  if s.dead then s else if s.pc t = .out then { s with pc := upd s.pc t (.want b) } else s

/-- What a thread does next: call `set_user_lock` or go on. -/
inductive Act where
  | call (b : Bool)
  | go
deriving DecidableEq, Repr

/-- One step of the system. -/
def step (s : Sys) : Nat × Act → Sys
  | (t, .call b) => call s t b
  | (t, .go) => go s t

/-- A schedule. -/
def run (s : Sys) (sched : List (Nat × Act)) : Sys := sched.foldl step s

end Verif.UserLock
