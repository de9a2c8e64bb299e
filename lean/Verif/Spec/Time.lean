/-! # Specification: calendar days in int64 nanoseconds since 1970-01-01T00:00 -/

namespace Verif.Spec

/-- Number of nanoseconds in a day. -/
def nsPerDay : Int := 86400000000000

/-- The midnight at or before `t`: `⌊t / day⌋` days after the epoch. -/
def midnight (t : Int) : Int := t / nsPerDay * nsPerDay

end Verif.Spec
