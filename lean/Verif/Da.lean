/-!
Model of direct access files: `c_checda`, `c_readda` and `c_writda`, src/primitives/c_baseio.c lines 98-100 and 1206-1305.

Transfers are requests to `c_waread` and `c_wawrit` (model `WaFile`): first word and number of words.  The code reads the word of memory after
the table of pending units; it is part of the state.
-/
namespace Verif.Da

/-- `dastat`, line 98, and the word after it. -/
structure St where
  tab : List Int
  after : Int
deriving DecidableEq, Repr

/-- MAXWAFILES, wafile.h line 2. -/
def size : Nat := 1024
/-- `blkSize`, line 100. -/
def blk : Int := 512

/-- A write outside of the table. -/
inductive Fault
  | outside
deriving DecidableEq, Repr

/-- A request: the first word and the number of words. -/
structure Req where
  adr : Int
  n : Int
deriving DecidableEq, Repr

/-- `c_checda`, lines 1206-1217. -/
def check (s : St) (u : Int) : St :=
  match s.tab.findIdx? (· == u) with
  | some k => { s with tab := s.tab.set k 0 }
  | none => s

/-- `c_readda`, lines 1229-1259, and `c_writda`, lines 1277-1306: the request sent, if any.  The test of line 1253 never holds. -/
def transfer (s : St) (u nwords offset : Int) : Except Fault (St × Option Req) :=
  match s.tab.findIdx? (· == u) with
  | some _ => .ok (s, none)
  | none =>
    if s.after = u then .ok (s, none)
    else
      match s.tab.findIdx? (· == 0) with
      | none => .error .outside
      | some k => .ok ({ s with tab := s.tab.set k u }, some ⟨(offset - 1) * blk + 1, nwords * blk⟩)

/-- A call. -/
inductive Op
  | check (u : Int)
  | transfer (u nwords offset : Int)

/-- One call, with the request. -/
def step (s : St) : Op → Except Fault (St × Option Req)
  | .check u => .ok (check s u, none)
  | .transfer u n o => transfer s u n o

/-- A program. -/
def run : St → List Op → Except Fault (St × List (Option Req))
  | s, [] => .ok (s, [])
  | s, op :: t =>
    match step s op with
    | .error e => .error e
    | .ok (s, r) =>
      match run s t with
      | .error e => .error e
      | .ok (s, rs) => .ok (s, r :: rs)

/-- The table at the start of the program. -/
def initial (after : Int) : St := ⟨List.replicate size 0, after⟩

end Verif.Da
