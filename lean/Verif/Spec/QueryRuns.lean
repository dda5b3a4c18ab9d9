import Verif.Model.Query

/-!
# Specification: sequences of calls on a query iterator
-/

namespace Verif.Spec

/-- One call of the iterator's `next` function: the time limits in force, the world before and after
it, and its result. -/
structure Call where
  lim : Limits
  before : World
  after : World
  res : QRes

/-- `Returns t E cs`: over the calls `cs` the iterator delivers the entries `E` one after the other,
reports failure when and only when all have been delivered, and, with `t`, may report timeouts at any
call, which lose nothing. -/
inductive Returns (t : Bool) : List Entry → List Call → Prop where
  | nil {E} : Returns t E []
  | entry {e E c cs} : c.res = .entry e → Returns t E cs → Returns t (e :: E) (c :: cs)
  | failure {c cs} : c.res = .failure → Returns t [] cs → Returns t [] (c :: cs)
  | timeout {E c cs} : t = true → c.res = .timeout → Returns t E cs → Returns t E (c :: cs)

/-- The calls made with the given time limits, one after the other. -/
def queryRun (q : Query) (B : Built) : List Limits → QSt B → World → List Call
  | [], _, _ => []
  | l :: ls, s, w =>
    let r := queryNext { q with lim := l } B s w
    ⟨l, w, r.2.2, r.1⟩ :: queryRun q B ls r.2.1 r.2.2

/-- Time in nanoseconds. -/
def ns (t : Timespec) : Int := t.sec * 1000000000 + t.nsec

/-- The nanoseconds are between 0 and 999999999. -/
def Normal (t : Timespec) : Prop := 0 ≤ t.nsec ∧ t.nsec < 1000000000

/-- The moment (in nanoseconds) at which a call has to stop: the absolute deadline, or the moment
`now` at which the call was made plus the timeout, whichever comes first. -/
def stopTime (l : Limits) (now : Timespec) : Option Int :=
  match l.doTimeout, l.doDeadline with
  | true, true => some (min (ns l.deadline) (ns now + ns l.timeout))
  | true, false => some (ns now + ns l.timeout)
  | false, true => some (ns l.deadline)
  | false, false => none

/-- The answers given by a run, timeouts left out. -/
def replies (cs : List Call) : List QRes := (cs.map (·.res)).filter (· ≠ .timeout)

/-- Number of the first clock reading of a call that precedes a table step.  Readings are numbered in
the order they are made; with a relative timeout, the first one of the call sets the deadline. -/
def Call.firstReading (c : Call) : Nat := c.before.tick + if c.lim.doTimeout then 1 else 0

/-- The call honours the deadline `stop`: it reports a timeout exactly when a reading has reached the
deadline, and that reading is then its last one. -/
def OnTime (c : Call) (stop : Int) : Prop :=
  (c.res = .timeout ∧ ∃ i, c.firstReading ≤ i ∧ c.after.tick = i + 1 ∧
    stop ≤ ns (c.before.clock i) ∧ ∀ j, c.firstReading ≤ j → j < i → ns (c.before.clock j) < stop) ∨
  (c.res ≠ .timeout ∧ ∀ j, c.firstReading ≤ j → j < c.after.tick → ns (c.before.clock j) < stop)

/-- A source whose steps are counted: every call of its `next` adds one to a counter that nothing
else uses. -/
def counted (M : Mach) : Mach :=
  { M with next := fun s w => M.next s (w.upd .fileset fun c => { c with merged := c.merged + 1 }) }

/-- The steps counted so far. -/
def steps (w : World) : Nat := (w.stats .fileset).merged

/-- Clock readings of a call that precede table steps and had not reached the deadline. -/
def Call.goodReadings (c : Call) : Nat :=
  c.after.tick - c.firstReading - if c.res = .timeout then 1 else 0

/-- The times given with the limits are normalised. -/
def NormalLimits (l : Limits) : Prop := Normal l.timeout ∧ Normal l.deadline

end Verif.Spec
