import Verif.Date.Model
import Verif.Fp.Model
/-
Model of `Date` as a value (src/core/Date.cpp): the present, times of Cocoa, local time, the getters and the comparison operators.  A date
is its number of milliseconds since 1970 (`mTime`); the calendar computations are those of `Verif.Date`.
-/
namespace Verif.DateVal
open Verif Verif.Math Verif.Date

/-- Date.cpp:44-47 (Linux): the present, from the answer of `gettimeofday`; `long` arithmetic, overflow is undefined behaviour -/
def now (sec usec : Int) : Res Int := do
  let ms ← chk (sec * 1000)
  chk (ms + usec.tdiv 1000)

/-- Date.cpp:55-58: the copy -/
def copy (t : Int) : Int := t

/-- Date.cpp:60-63: from milliseconds -/
def ofMillis (t : Int) : Int := t

/-- Date.cpp:81-90: `fromNSDate`; the conversion to `int64` is undefined for numbers whose integral part is not in range, and so is the
overflow of the sum -/
def fromNSDate (nsdate : Fp.F64) : Res Int := do
  let date ← Fp.toInt64 (nsdate * Fp.lit 1000 1)
  chk (978307200000 + date)

/-- Date.cpp:239-242 -/
def localTimeZoneAdjustment : Int := 0

/-- Date.cpp:244-247 -/
def daylightSavingTimeAdjustment : Int := 0

/-- Date.cpp:249-252 -/
def localTime (t : Int) : Int := t + localTimeZoneAdjustment + daylightSavingTimeAdjustment

/-- Date.cpp:254-257 -/
def utc (t : Int) : Int := t - localTimeZoneAdjustment - daylightSavingTimeAdjustment

/-- Date.h:94 and Date.cpp:365-368 -/
def isEmpty (t : Int) : Bool := t == -9223372036854775808

/-- Date.cpp:370-373 -/
def time (t : Int) : Int := t

/-- Date.cpp:375-378; the date before and the new time -/
def setTime (_old t : Int) : Int := t

/-- Date.cpp:380-383 -/
def year (t : Int) : Res Int := yearFromTime (localTime t)
/-- Date.cpp:385-388 -/
def utcYear (t : Int) : Res Int := yearFromTime t
/-- Date.cpp:390-393 -/
def month (t : Int) : Res Int := monthFromTime (localTime t)
/-- Date.cpp:395-398 -/
def utcMonth (t : Int) : Res Int := monthFromTime t
/-- Date.cpp:400-403 -/
def date (t : Int) : Res Int := dateFromTime (localTime t)
/-- Date.cpp:405-408 -/
def utcDate (t : Int) : Res Int := dateFromTime t
/-- Date.cpp:410-413 -/
def dayOfWeek (t : Int) : Res Int := weekDay (localTime t)
/-- Date.cpp:415-418 -/
def dayOfYear (t : Int) : Res Int := dayWithinYear (localTime t)
/-- Date.cpp:420-423 -/
def utcDay (t : Int) : Res Int := weekDay t
/-- Date.cpp:425-428 -/
def hours (t : Int) : Res Int := hourFromTime (localTime t)
/-- Date.cpp:430-433 -/
def utcHours (t : Int) : Res Int := hourFromTime t
/-- Date.cpp:435-438 -/
def minutes (t : Int) : Res Int := minuteFromTime (localTime t)
/-- Date.cpp:440-443 -/
def utcMinutes (t : Int) : Res Int := minuteFromTime t
/-- Date.cpp:445-448 -/
def seconds (t : Int) : Res Int := secondFromTime (localTime t)
/-- Date.cpp:450-453 -/
def utcSeconds (t : Int) : Res Int := secondFromTime t
/-- Date.cpp:455-458 -/
def milliseconds (t : Int) : Res Int := milliFromTime (localTime t)
/-- Date.cpp:460-463 -/
def utcMilliseconds (t : Int) : Res Int := milliFromTime t

/-- Date.cpp:513-516 -/
def lt (t u : Int) : Bool := decide (t < u)
/-- Date.cpp:518-521 -/
def le (t u : Int) : Bool := decide (t ≤ u)
/-- Date.cpp:523-526 -/
def gt (t u : Int) : Bool := decide (t > u)
/-- Date.cpp:528-531 -/
def ge (t u : Int) : Bool := decide (t ≥ u)
/-- Date.cpp:533-536 -/
def ne (t u : Int) : Bool := decide (t ≠ u)
/-- Date.cpp:539-542 -/
def eq (t u : Int) : Bool := decide (t = u)

end Verif.DateVal
