/-!
Model of the serializer, src/serializer/jar_mod.F90.  The memory of a jar is a list of bytes; an access outside
of it is `none`.  Sizes are not negative (they come from storage_size).  The final procedure, the printing and
the pointers given out are not modelled.
-/
namespace Verif.Jar

abbrev Byte := BitVec 8

/-- `jar`, lines 65-71; `ptr` says that memory is attached. -/
structure Jar where
  ptr : Bool
  size : Nat
  top : Nat
  bot : Nat
  opt : Nat
  mem : List Byte

/-- Initial values, lines 67-71. -/
def empty : Jar := ⟨false, 0, 0, 0, 0, []⟩

/-- Assignment of bytes from `off` on. -/
def write (mem : List Byte) (off : Nat) (b : List Byte) : Option (List Byte) :=
  if off + b.length ≤ mem.length then some (mem.take off ++ b ++ mem.drop (off + b.length)) else none

/-- Bytes read; `none` when they are not all there. -/
def read (mem : List Byte) (off n : Nat) : Option (List Byte) :=
  if off + n ≤ mem.length then some ((mem.drop off).take n) else none

/-- `jar_new_i8`, lines 122-144; `fresh` is the content of the new memory, `none` if there is none to be had. -/
def new (j : Jar) (n : Nat) (fresh : Option (Nat → Byte)) : Jar × Bool :=
  if j.ptr then (j, false)
  else
    match fresh with
    | none => (j, false)
    | some f => (⟨true, n, 0, 0, 0, (List.range (8 * n)).map f⟩, true)

/-- `jar_shape_with`, lines 148-168, for an array of whole elements. -/
def shapeWith (j : Jar) (array : List Byte) : Jar × Bool :=
  if j.ptr then (j, false)
  else (⟨true, array.length / 8, array.length / 8, 0, 1, array⟩, true)

/-- `jar_reset`, lines 182-188. -/
def reset (j : Jar) : Jar := { j with top := 0, bot := 0 }

/-- `jar_free`, lines 311-330. -/
def free (j : Jar) : Jar × Int := (⟨false, 0, 0, 0, 0, []⟩, if j.ptr then 0 else -1)

/-- `jar_avail`, lines 205-213. -/
def avail (j : Jar) : Int := if j.ptr then (j.top : Int) - j.bot else -1

/-- Start of an access, lines 366-370 and 421-425. -/
def posOf (position : Option Int) (current : Nat) : Int :=
  match position with
  | some p => p - 1
  | none => current

/-- `jar_put_into`, lines 350-383.  The object is copied by whole elements: `junk` are the bytes that follow it
in memory. -/
def insert (j : Jar) (obj : List Byte) (junk : Nat → Byte) (position : Option Int) : Option (Jar × Bool) :=
  if !j.ptr then some (j, false)
  else
    let ip := posOf position j.top
    if ip < 0 then some (j, false)
    else
      let ip := ip.toNat
      let filled := if ip > j.top then write j.mem (8 * j.top) (List.replicate (8 * (ip - j.top)) 0#8) else some j.mem
      match filled with
      | none => none
      | some mem =>
        let n := (8 * obj.length + 64 - 1) / 64
        if ip + n > j.size then some ({ j with mem := mem }, false)
        else
          match write mem (8 * ip) ((List.range (8 * n)).map fun i => obj.getD i (junk i)) with
          | none => none
          | some mem => some ({ j with mem := mem, top := ip + n }, true)

/-- `jar_get_outof`, lines 404-457: `n` bytes are asked for, and returned. -/
def extract (j : Jar) (n : Nat) (position : Option Int) : Option (Jar × Option (List Byte)) :=
  if !j.ptr then some (j, none)
  else
    let ep := posOf position j.bot
    if ep < 0 then some (j, none)
    else
      let ep := ep.toNat
      let down := 8 * n / 64
      let up := (8 * n + 64 - 1) / 64
      if ep + up > j.top then some (j, none)
      else
        match read j.mem (8 * ep) (8 * down) with
        | none => none
        | some a =>
          if up > down then
            match read j.mem (8 * ep + down * 8) (8 * n / 8 - down * 8) with
            | none => none
            | some b => some ({ j with bot := ep + up }, some (a ++ b))
          else some ({ j with bot := ep + up }, some a)

/-- The calls on a jar. -/
inductive Op
  | insert (obj : List Byte) (junk : Nat → Byte) (position : Option Int)
  | extract (n : Nat) (position : Option Int)
  | reset

inductive Out
  | done (ok : Bool)
  | bytes (r : Option (List Byte))

def step (j : Jar) : Op → Option (Jar × Out)
  | .insert obj junk p => (insert j obj junk p).map fun r => (r.1, .done r.2)
  | .extract n p => (extract j n p).map fun r => (r.1, .bytes r.2)
  | .reset => some (reset j, .done true)

def run (j : Jar) : List Op → Option (List Out)
  | [] => some []
  | o :: os =>
    match step j o with
    | none => none
    | some (j, r) => (run j os).map (r :: ·)

end Verif.Jar
