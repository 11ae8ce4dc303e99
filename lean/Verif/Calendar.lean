import Verif.Py
import Mathlib.Tactic.NormNum
import Mathlib.Tactic.Tauto

/-!
# `datetime.date.toordinal` and `datetime.date.fromordinal`

The archive stores a date as its ordinal (la/io.py:673) and turns it back into a date when loading
(la/io.py:649).  Both conversions belong to Python's standard library; they are written out here as in
CPython's `datetime.py` (`_days_before_year`, `_days_before_month`, `_ymd2ord`, `_ord2ymd`).
-/

namespace La

/-- A `datetime.date`. -/
structure PyDate where
  year : Nat
  month : Nat
  day : Nat
  deriving DecidableEq, Repr

/-- `_is_leap(year)` -/
def isLeap (y : Nat) : Bool := y % 4 = 0 && (y % 100 ≠ 0 || y % 400 = 0)

/-- `_DAYS_IN_MONTH`, without the leap day. -/
def daysInMonth0 (m : Nat) : Nat := [0, 31, 28, 31, 30, 31, 30, 31, 31, 30, 31, 30, 31].getD m 0

/-- `_DAYS_BEFORE_MONTH`, without the leap day. -/
def daysBefore0 (m : Nat) : Nat := [0, 0, 31, 59, 90, 120, 151, 181, 212, 243, 273, 304, 334].getD m 0

/-- `_days_in_month(year, month)`, given whether the year is a leap year. -/
def daysInMonth (leap : Bool) (m : Nat) : Nat := daysInMonth0 m + if m = 2 ∧ leap then 1 else 0

/-- `_days_before_month(year, month)`, given whether the year is a leap year. -/
def daysBefore (leap : Bool) (m : Nat) : Nat := daysBefore0 m + if m > 2 ∧ leap then 1 else 0

/-- `_days_before_year(year)` -/
def daysBeforeYear (y : Nat) : Nat :=
  (y - 1) * 365 + (y - 1) / 4 - (y - 1) / 100 + (y - 1) / 400

/-- The dates `datetime.date` can hold (`MINYEAR` = 1, `MAXYEAR` = 9999). -/
def PyDate.Ok (d : PyDate) : Prop :=
  1 ≤ d.year ∧ d.year ≤ 9999 ∧ 1 ≤ d.month ∧ d.month ≤ 12 ∧ 1 ≤ d.day ∧
    d.day ≤ daysInMonth (isLeap d.year) d.month

instance (d : PyDate) : Decidable d.Ok := by unfold PyDate.Ok; infer_instance

/-- `date.toordinal()` -/
def PyDate.toOrdinal (d : PyDate) : Nat :=
  daysBeforeYear d.year + daysBefore (isLeap d.year) d.month + d.day

/-- The end of `_ord2ymd`: month and day, from the position `n` in the year. -/
def monthDay (leap : Bool) (n : Nat) : Nat × Nat :=
  let month := (n + 50) / 32
  let preceding := daysBefore leap month
  if preceding > n then (month - 1, n - (preceding - daysInMonth leap (month - 1)) + 1)
  else (month, n - preceding + 1)

/-- `_ord2ymd(n)` -/
def ordToYmd (n : Nat) : PyDate :=
  let n := n - 1
  let n400 := n / 146097
  let n := n % 146097
  let n100 := n / 36524
  let n := n % 36524
  let n4 := n / 1461
  let n := n % 1461
  let n1 := n / 365
  let n := n % 365
  let year := n400 * 400 + 1 + n100 * 100 + n4 * 4 + n1
  if n1 = 4 ∨ n100 = 4 then ⟨year - 1, 12, 31⟩
  else
    let leap := n1 = 3 ∧ (n4 ≠ 24 ∨ n100 = 3)
    ⟨year, (monthDay leap n).1, (monthDay leap n).2⟩

/-- `date.fromordinal(n)`: ValueError unless the ordinal is that of a date `datetime.date` can hold. -/
def PyDate.fromOrdinal (n : Int) : Res PyDate :=
  if 1 ≤ n ∧ n ≤ 3652059 then .ok (ordToYmd n.toNat) else .error .valueError

/-- The month and the day are recovered from the position in the year: the whole (finite) calendar. -/
theorem monthDay_eq (leap : Bool) (m d : Nat) (h1 : 1 ≤ m) (h2 : m ≤ 12) (h3 : 1 ≤ d)
    (h4 : d ≤ daysInMonth leap m) : monthDay leap (daysBefore leap m + d - 1) = (m, d) := by
  have key : ∀ leap : Bool, ∀ m < 13, ∀ d < 32, 1 ≤ m ∧ 1 ≤ d ∧ d ≤ daysInMonth leap m →
      monthDay leap (daysBefore leap m + d - 1) = (m, d) := by decide +kernel
  have hd : d < 32 := by
    have : ∀ leap : Bool, ∀ m < 13, daysInMonth leap m ≤ 31 := by decide +kernel
    have := this leap m (by omega); omega
  exact key leap m (by omega) d hd ⟨h1, h3, h4⟩

/-- A date lies within its year. -/
theorem doy_lt (leap : Bool) (m d : Nat) (h1 : 1 ≤ m) (h2 : m ≤ 12)
    (h4 : d ≤ daysInMonth leap m) : daysBefore leap m + d ≤ 365 + if leap then 1 else 0 := by
  have key : ∀ leap : Bool, ∀ m < 13, 1 ≤ m →
      daysBefore leap m + daysInMonth leap m ≤ 365 + if leap then 1 else 0 := by decide +kernel
  have := key leap m (by omega) h1; omega

/-- The last day of a leap year is the 31st of December. -/
theorem doy_last (m d : Nat) (h1 : 1 ≤ m) (h2 : m ≤ 12) (h3 : 1 ≤ d)
    (h4 : d ≤ daysInMonth true m) (h : daysBefore true m + d = 366) : m = 12 ∧ d = 31 := by
  have := monthDay_eq true m d h1 h2 h3 h4
  rw [h] at this
  have h' : monthDay true (366 - 1) = (12, 31) := by decide +kernel
  rw [h'] at this
  simpa [eq_comm] using this

/-- Centuries and leap cycles of a year. -/
theorem year_digits (y : Nat) (hy : 1 ≤ y) : ∃ a b c e, b < 4 ∧ c < 25 ∧ e < 4 ∧
    y = 400 * a + 100 * b + 4 * c + e + 1 :=
  ⟨(y-1)/400, (y-1)%400/100, (y-1)%100/4, (y-1)%4, by omega, by omega, by omega, by omega⟩

theorem isLeap_digits {a b c e : Nat} (hb : b < 4) (hc : c < 25) (he : e < 4) :
    isLeap (400 * a + 100 * b + 4 * c + e + 1) = decide (e = 3 ∧ (c ≠ 24 ∨ b = 3)) := by
  have e4 : (400 * a + 100 * b + 4 * c + e + 1) % 4 = 0 ↔ e = 3 := by omega
  have e100 : (400 * a + 100 * b + 4 * c + e + 1) % 100 = 0 ↔ e = 3 ∧ c = 24 := by omega
  have e400 : (400 * a + 100 * b + 4 * c + e + 1) % 400 = 0 ↔ e = 3 ∧ c = 24 ∧ b = 3 := by omega
  unfold isLeap
  rw [Bool.eq_iff_iff]
  simp only [Bool.and_eq_true, Bool.or_eq_true, decide_eq_true_eq, ne_eq]
  rw [e4, e100, e400]
  tauto

theorem daysBeforeYear_digits {a b c e : Nat} (hb : b < 4) (hc : c < 25) (he : e < 4) :
    daysBeforeYear (400 * a + 100 * b + 4 * c + e + 1)
      = 146097 * a + 36524 * b + 1461 * c + 365 * e := by
  have e1 : (400 * a + 100 * b + 4 * c + e) / 4 = 100 * a + 25 * b + c := by omega
  have e2 : (400 * a + 100 * b + 4 * c + e) / 100 = 4 * a + b := by omega
  have e3 : (400 * a + 100 * b + 4 * c + e) / 400 = a := by omega
  unfold daysBeforeYear
  rw [Nat.add_sub_cancel, e1, e2, e3]
  omega

/-- `_ord2ymd` on a day other than the last of a leap year. -/
theorem ordToYmd_digits {a b c e n : Nat} (hb : b < 4) (hc : c < 25) (he : e < 4) (hn : n < 365) :
    ordToYmd (146097 * a + 36524 * b + 1461 * c + 365 * e + n + 1)
      = ⟨400 * a + 100 * b + 4 * c + e + 1, (monthDay (decide (e = 3 ∧ (c ≠ 24 ∨ b = 3))) n).1,
        (monthDay (decide (e = 3 ∧ (c ≠ 24 ∨ b = 3))) n).2⟩ := by
  have q1 : (146097 * a + 36524 * b + 1461 * c + 365 * e + n) / 146097 = a := by omega
  have q2 : (146097 * a + 36524 * b + 1461 * c + 365 * e + n) % 146097
    = 36524 * b + 1461 * c + 365 * e + n := by omega
  have p1 : (36524 * b + 1461 * c + 365 * e + n) / 36524 = b := by omega
  have p2 : (36524 * b + 1461 * c + 365 * e + n) % 36524 = 1461 * c + 365 * e + n := by omega
  have p3 : (1461 * c + 365 * e + n) / 1461 = c := by omega
  have p4 : (1461 * c + 365 * e + n) % 1461 = 365 * e + n := by omega
  have p5 : (365 * e + n) / 365 = e := by omega
  have p6 : (365 * e + n) % 365 = n := by omega
  unfold ordToYmd
  simp only [Nat.add_sub_cancel]
  rw [q1, q2, p1, p2, p3, p4, p5, p6, if_neg (by omega)]
  congr 1; omega

/-- `_ord2ymd` on the last day of a leap year. -/
theorem ordToYmd_last {a b c : Nat} (hb : b < 4) (hc : c < 25) (hl : c ≠ 24 ∨ b = 3) :
    ordToYmd (146097 * a + 36524 * b + 1461 * c + 365 * 3 + 365 + 1)
      = ⟨400 * a + 100 * b + 4 * c + 3 + 1, 12, 31⟩ := by
  have q1 : (146097 * a + 36524 * b + 1461 * c + 365 * 3 + 365) / 146097 = a := by omega
  have q2 : (146097 * a + 36524 * b + 1461 * c + 365 * 3 + 365) % 146097
    = 36524 * b + 1461 * c + 365 * 3 + 365 := by omega
  unfold ordToYmd
  simp only [Nat.add_sub_cancel]
  rw [q1, q2]
  by_cases hb3 : c = 24 ∧ b = 3
  · obtain ⟨rfl, rfl⟩ := hb3
    simp only [Nat.reduceMul, Nat.reduceAdd, Nat.reduceDiv, Nat.reduceMod]
    rw [if_pos (Or.inr trivial)]
    rw [PyDate.mk.injEq]; exact ⟨by omega, rfl, rfl⟩
  · have p1 : (36524 * b + 1461 * c + 365 * 3 + 365) / 36524 = b := by omega
    have p2 : (36524 * b + 1461 * c + 365 * 3 + 365) % 36524 = 1461 * c + 365 * 3 + 365 := by omega
    have p3 : (1461 * c + 365 * 3 + 365) / 1461 = c := by omega
    have p4 : (1461 * c + 365 * 3 + 365) % 1461 = 365 * 3 + 365 := by omega
    rw [p1, p2, p3, p4]
    simp only [Nat.reduceMul, Nat.reduceAdd, Nat.reduceDiv, Nat.reduceMod]
    rw [if_pos (Or.inl trivial)]
    rw [PyDate.mk.injEq]; exact ⟨by omega, rfl, rfl⟩

/-- `date.fromordinal(d.toordinal()) == d` -/
theorem ordToYmd_toOrdinal {d : PyDate} (h : d.Ok) : ordToYmd d.toOrdinal = d := by
  obtain ⟨y, m, dd⟩ := d
  obtain ⟨hy1, -, hm1, hm2, hd1, hd2⟩ := h
  simp only at hy1 hm1 hm2 hd1 hd2
  obtain ⟨a, b, c, e, hb, hc, he, rfl⟩ := year_digits y hy1
  have hmd := monthDay_eq _ m dd hm1 hm2 hd1 hd2
  have hlt := doy_lt _ m dd hm1 hm2 hd2
  have hlast := doy_last m dd hm1 hm2 hd1
  unfold PyDate.toOrdinal
  simp only [daysBeforeYear_digits hb hc he]
  rw [isLeap_digits hb hc he] at *
  generalize hL : decide (e = 3 ∧ (c ≠ 24 ∨ b = 3)) = leap at *
  obtain ⟨n, hn⟩ : ∃ n, daysBefore leap m + dd = n + 1 := ⟨daysBefore leap m + dd - 1, by omega⟩
  rw [Nat.add_assoc, hn, ← Nat.add_assoc]
  rw [hn, Nat.add_sub_cancel] at hmd
  by_cases h5 : n < 365
  · rw [ordToYmd_digits hb hc he h5, hL, hmd]
  · cases leap with
    | false => simp only [Bool.false_eq_true, if_false] at hlt; omega
    | true =>
      simp only [if_true] at hlt
      obtain rfl : n = 365 := by omega
      obtain ⟨rfl, hl⟩ : e = 3 ∧ (c ≠ 24 ∨ b = 3) := by simpa using hL
      obtain ⟨rfl, rfl⟩ := hlast hd2 hn
      exact ordToYmd_last hb hc hl

theorem PyDate.fromOrdinal_toOrdinal {d : PyDate} (h : d.Ok) :
    PyDate.fromOrdinal (d.toOrdinal : Int) = .ok d := by
  have hr : 1 ≤ d.toOrdinal ∧ d.toOrdinal ≤ 3652059 := by
    obtain ⟨hy1, hy2, hm1, hm2, hd1, hd2⟩ := h
    have hlt := doy_lt (isLeap d.year) d.month d.day hm1 hm2 hd2
    unfold PyDate.toOrdinal
    refine ⟨by omega, ?_⟩
    have h9 : isLeap d.year = true → d.year ≤ 9996 := by
      unfold isLeap
      simp only [Bool.and_eq_true, decide_eq_true_eq]
      omega
    cases hl : isLeap d.year
    · rw [hl] at hlt; simp only [Bool.false_eq_true, if_false] at hlt
      have : daysBeforeYear d.year ≤ 3651694 := by unfold daysBeforeYear; omega
      omega
    · rw [hl] at hlt; simp only [if_true] at hlt
      have := h9 hl
      have : daysBeforeYear d.year ≤ 3650598 := by unfold daysBeforeYear; omega
      omega
  unfold PyDate.fromOrdinal
  rw [if_pos (by omega), Int.toNat_natCast, ordToYmd_toOrdinal h]

example : (⟨2011, 8, 12⟩ : PyDate).Ok ∧ (⟨2011, 8, 12⟩ : PyDate).toOrdinal = 734361 ∧
    PyDate.fromOrdinal 734361 = .ok ⟨2011, 8, 12⟩ ∧ (⟨2000, 2, 29⟩ : PyDate).Ok ∧
    ¬ (⟨1900, 2, 29⟩ : PyDate).Ok := by decide +kernel

end La
