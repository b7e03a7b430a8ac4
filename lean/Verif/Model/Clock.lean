/-!
The clocks of the two embedded drivers: memberlist-embassy/src/time/mod.rs, and memberlist-smoltcp/src/addr/mod.rs
with the fold at the end of `Memberlist::poll`, memberlist-smoltcp/src/memberlist/mod.rs:1666-1716.

An instant of the machine is the number of nanoseconds since the origin. The two crates that keep time are
external and modelled by their documented conversions: `embassy_time` counts ticks at a rate of `hz` per second,
reads them as whole microseconds rounding down, and makes whole ticks of microseconds rounding either way
(its documentation says up, the comment at time/mod.rs:75-82 says down, so that the model takes the choice);
`smoltcp` counts whole microseconds. Their intermediate products are taken without overflow.
-/

namespace Verif.Clock

/-- The largest value of a `u64`. -/
def maxU64 : Nat := 2 ^ 64 - 1

/-- How `embassy_time::Duration::from_micros` rounds to ticks. -/
inductive Rounding where
  | down
  | up
deriving DecidableEq, Repr

/-- `embassy_time::Duration::from_micros` at `hz` ticks a second: external. -/
def ticksOf (r : Rounding) (hz us : Nat) : Nat :=
  match r with
  | .down => us * hz / 1000000
  | .up => (us * hz + 999999) / 1000000

/-- `EmbassyInstant::machine`, memberlist-embassy/src/time/mod.rs:51-56: the tick as an instant of the machine, by
way of microseconds. -/
def machine (hz tick : Nat) : Nat := tick * 1000000 / hz * 1000

/-- `machine_to_raw`, memberlist-embassy/src/time/mod.rs:89-100: the tick for which the timer of the pump loop is
set (runner.rs:171-181). -/
def machineToRaw (r : Rounding) (hz deadline : Nat) : Nat :=
  let us := deadline / 1000
  if us ≤ maxU64 then
    if ticksOf r hz us ≤ maxU64 then ticksOf r hz us else maxU64
  else maxU64

/-- `to_smoltcp_instant`, memberlist-smoltcp/src/addr/mod.rs:26-32: the machine's instant as microseconds of
smoltcp, by way of milliseconds. The bound that the debug assertion checks is left out. -/
def toSmoltcp (now : Nat) : Nat := now / 1000000 * 1000

/-- `from_smoltcp_instant`, memberlist-smoltcp/src/addr/mod.rs:36-39. -/
def fromSmoltcp (us : Nat) : Nat := us / 1000 * 1000000

/-- `min_opt`, memberlist-smoltcp/src/memberlist/mod.rs:1710-1715. -/
def minOpt : Option Nat → Option Nat → Option Nat
  | some x, some y => some (min x y)
  | some x, none => some x
  | none, y => y

/-- What `Memberlist::poll` returns, memberlist-smoltcp/src/memberlist/mod.rs:1695-1706, from the stack's `poll_at` (in
smoltcp's microseconds) and the instant the engine's pump returned. -/
def pollWake (stack next : Option Nat) : Option Nat := minOpt (stack.map fromSmoltcp) next

end Verif.Clock
