import Verif.Clock
import Verif.Props.Timetag
/-!
# C98: time tags and the system clock

The scale of the specification: `tagMicros` is `1000000 * 2^32` times the number of seconds since 1900 that a time tag says (NTP), and
`clockMicros` is the same number for a clock that says `sec` seconds and `usec` microseconds since 1970; 1970 began 25567 days after 1900.
-/

namespace Libo.Props
open Libo

/-- The time said by a time tag, in units of `10⁻⁶ · 2⁻³²` seconds since 1900. -/
def tagMicros (t : Timetag) : Int := (ttValue t : Int) * 1000000

/-- The time said by a clock, in the same unit. -/
def clockMicros (c : Clock) : Int := ((25567 * 86400 + c.sec) * 1000000 + c.usec) * 4294967296

/-- A clock between 1970 and the end of the NTP era in 2036, with a proper number of microseconds. -/
def InEra (c : Clock) : Prop := 0 ≤ c.sec ∧ 25567 * 86400 + c.sec < 4294967296 ∧ 0 ≤ c.usec ∧ c.usec < 1000000

/-- The beginning of 1970, by the calendar. -/
example : CalSpec.seconds 1970 1 1 0 0 0 = 25567 * 86400 := by decide +kernel

theorem now_value (c : Clock) (h : InEra c) :
    (ttValue c.now : Int) = (25567 * 86400 + c.sec) * 4294967296 + c.usec * 4295 % 4294967296 := by
  obtain ⟨h0, h1, h2, h3⟩ := h
  have e1 : (c.now.sec.toNat : Int) = 25567 * 86400 + c.sec := by
    unfold Clock.now
    simp only [UInt32.toNat_add, UInt32.toNat_ofNat']
    rw [show (2208988800 : UInt32).toNat = 2208988800 from rfl]
    omega
  have e2 : (c.now.frac.toNat : Int) = c.usec * 4295 % 4294967296 := by
    unfold Clock.now
    simp only [UInt32.toNat_ofNat']
    generalize c.usec * 4295 = x
    omega
  unfold ttValue
  rw [Int.natCast_add, Int.natCast_mul, e1, e2]
  rfl

theorem frac_small (u : Int) (h0 : 0 ≤ u) (h : u ≤ 999992) : u * 4295 % 4294967296 = u * 4295 :=
  Int.emod_eq_of_lt (by omega) (by omega)

theorem frac_wraps (u : Int) (h : 999993 ≤ u) (h1 : u < 1000000) : u * 4295 % 4294967296 = u * 4295 - 4294967296 := by
  rw [← Int.sub_emod_right]
  exact Int.emod_eq_of_lt (by omega) (by omega)

/-- The time tag of the clock is never before the time of the clock and less than eight microseconds after it, except in the last seven
microseconds of a second. -/
theorem C98_now_partial (c : Clock) (h : InEra c) (hu : c.usec ≤ 999992) :
    clockMicros c ≤ tagMicros c.now ∧ tagMicros c.now < clockMicros c + 8 * 4294967296 := by
  unfold tagMicros clockMicros
  rw [now_value c h, frac_small _ h.2.2.1 hu]
  obtain ⟨h0, h1, h2, h3⟩ := h
  omega

/-- The full statement, for every microsecond of a second. -/
def C98_now_full : Prop :=
  ∀ c : Clock, InEra c → clockMicros c ≤ tagMicros c.now ∧ tagMicros c.now < clockMicros c + 8 * 4294967296

/-- In the last seven microseconds of a second the product of the microseconds and 4295 does not fit into the 32 bits of the fraction: the
time tag is more than 0.999 seconds before the clock. -/
theorem C98_now_back (c : Clock) (h : InEra c) (hu : 999993 ≤ c.usec) :
    tagMicros c.now < clockMicros c - 999000 * 4294967296 := by
  unfold tagMicros clockMicros
  rw [now_value c h, frac_wraps _ hu h.2.2.2]
  obtain ⟨h0, h1, h2, h3⟩ := h
  omega

/-- The full statement is false: a witness in 2023. -/
theorem C98_now_full_fails : ¬ C98_now_full := by
  intro h
  have := h ⟨1700000000, 999993, 0, 0⟩ (by unfold InEra; decide)
  revert this
  decide +kernel

/-- Time tags of a clock that advances come in order, as the library compares them, outside of the last seven microseconds of seconds. -/
theorem C98_order_partial (c d : Clock) (hc : InEra c) (hd : InEra d) (hu : c.usec ≤ 999992) (hv : d.usec ≤ 999992)
    (h : clockMicros c < clockMicros d) : c.now.compare d.now = -1 := by
  rw [(C29_compare _ _).1]
  have e1 := now_value c hc
  have e2 := now_value d hd
  rw [frac_small _ hc.2.2.1 hu] at e1
  rw [frac_small _ hd.2.2.1 hv] at e2
  unfold clockMicros at h
  obtain ⟨h0, h1, h2, h3⟩ := hc
  obtain ⟨k0, k1, k2, k3⟩ := hd
  omega

/-- The full statement on the order of time tags. -/
def C98_order_full : Prop :=
  ∀ c d : Clock, InEra c → InEra d → clockMicros c < clockMicros d → c.now.compare d.now = -1

/-- The full statement is false: one microsecond later the time tag is a second earlier. -/
theorem C98_order_full_fails : ¬ C98_order_full := by
  intro h
  have := h ⟨1700000000, 999992, 0, 0⟩ ⟨1700000000, 999993, 0, 0⟩ (by unfold InEra; decide) (by unfold InEra; decide) (by decide)
  revert this
  decide +kernel

/-- `tz_minuteswest` and `tz_dsttime` as a number of seconds by which the local clock is behind. -/
def behind (c : Clock) : Int := 60 * c.west - (if c.dst = 1 then 3600 else 0)

/-- A zone of less than a day. -/
def Zoned (c : Clock) : Prop := -1440 < c.west ∧ c.west < 1440

theorem zone_ok (c : Clock) (h : Zoned c) : c.zone = some (60 * c.west) := by
  unfold Zoned at h
  unfold Clock.zone
  rw [if_pos (by omega)]

theorem utToNtp_value (c : Clock) (h : Zoned c) (ut : Int) :
    ∃ t, c.utToNtp ut = some t ∧ t.frac = 0 ∧ (t.sec.toNat : Int) = (25567 * 86400 + ut - behind c) % 4294967296 := by
  refine ⟨_, by unfold Clock.utToNtp; rw [zone_ok c h]; rfl, rfl, ?_⟩
  simp only [UInt32.toNat_ofNat', Clock.summer, behind]
  unfold Zoned at h
  split <;> omega

/-- Unix time to time tag: whole seconds since 1900 by the local clock, as long as this fits into the 32 bits of an NTP era. -/
theorem C98_fromUnix (c : Clock) (h : Zoned c) (ut : Int) (h0 : 0 ≤ 25567 * 86400 + ut - behind c)
    (h1 : 25567 * 86400 + ut - behind c < 4294967296) :
    ∃ t, c.utToNtp ut = some t ∧ (ttValue t : Int) = (25567 * 86400 + ut - behind c) * 4294967296 := by
  obtain ⟨t, ht, hf, hs⟩ := utToNtp_value c h ut
  refine ⟨t, ht, ?_⟩
  unfold ttValue
  rw [hf]
  have : (0 : UInt32).toNat = 0 := rfl
  rw [this]
  omega

/-- Time tag to Unix time: the whole seconds of the time tag, taken as local time. -/
theorem C98_toUnix (c : Clock) (h : Zoned c) (t : Timetag) :
    ∃ u, c.ntpToUt t = some u ∧ 25567 * 86400 + u - behind c = (ttValue t : Int) / 4294967296 := by
  refine ⟨_, by unfold Clock.ntpToUt; rw [zone_ok c h]; rfl, ?_⟩
  have e : (ttValue t : Int) / 4294967296 = t.sec.toNat := by
    have hf := t.frac.toNat_lt
    unfold ttValue
    omega
  rw [e]
  show 25567 * 86400 + ((t.sec.toNat : Int) - 2208988800 + 60 * c.west - c.summer) - behind c = t.sec.toNat
  unfold Clock.summer behind
  split <;> omega

/-- Unix times come back from time tags, as long as the zone is the same and the time fits into the NTP era. -/
theorem C98_unix_tag_unix_partial (c : Clock) (h : Zoned c) (ut : Int) (h0 : 0 ≤ 25567 * 86400 + ut - behind c)
    (h1 : 25567 * 86400 + ut - behind c < 4294967296) : (c.utToNtp ut).bind c.ntpToUt = some ut := by
  obtain ⟨t, ht, hv⟩ := C98_fromUnix c h ut h0 h1
  obtain ⟨u, hu, hw⟩ := C98_toUnix c h t
  rw [ht, Option.bind_some, hu]
  congr 1
  omega

/-- The full statement, without the bound of the era. -/
def C98_unix_full : Prop := ∀ (c : Clock) (ut : Int), Zoned c → (c.utToNtp ut).bind c.ntpToUt = some ut

/-- The full statement is false: the first second after the era, 2036-02-07T06:28:16 UTC, comes back as the beginning of 1900. -/
theorem C98_unix_full_fails : ¬ C98_unix_full := by
  intro h
  have := h ⟨0, 0, 0, 0⟩ 2085978496 (by unfold Zoned; decide)
  revert this
  decide +kernel

/-- The whole seconds of every time tag come back from Unix times, in every zone. -/
theorem C98_tag_unix_tag (c : Clock) (h : Zoned c) (t : Timetag) : (c.ntpToUt t).bind c.utToNtp = some ⟨t.sec, 0⟩ := by
  obtain ⟨u, hu, hw⟩ := C98_toUnix c h t
  obtain ⟨r, hr, hf, hs⟩ := utToNtp_value c h u
  rw [hu, Option.bind_some, hr]
  have hl := t.sec.toNat_lt
  have hl2 := t.frac.toNat_lt
  have : r.sec = t.sec := by
    apply UInt32.toNat_inj.1
    unfold ttValue at hw
    omega
  cases r
  simp_all

/-- Where the zone has no offset, the time of the clock as a Unix time and the time tag of the clock say the same second. -/
theorem C98_agree_partial (c : Clock) (h : Zoned c) (he : InEra c) (hz : behind c = 0) :
    c.utToNtp c.sec = some ⟨c.now.sec, 0⟩ := by
  obtain ⟨r, hr, hf, hs⟩ := utToNtp_value c h c.sec
  rw [hr]
  have e := now_value c he
  have hl := c.now.frac.toNat_lt
  have hm := Int.emod_lt_of_pos (c.usec * 4295) (show (0 : Int) < 4294967296 by decide)
  have hn := Int.emod_nonneg (c.usec * 4295) (show (4294967296 : Int) ≠ 0 by decide)
  generalize c.usec * 4295 % 4294967296 = x at e hm hn
  obtain ⟨h0, h1, h2, h3⟩ := he
  have : r.sec = c.now.sec := by
    apply UInt32.toNat_inj.1
    unfold ttValue at e
    omega
  cases r
  simp_all

/-- The full statement, for every zone. -/
def C98_agree_full : Prop := ∀ c : Clock, Zoned c → InEra c → c.utToNtp c.sec = some ⟨c.now.sec, 0⟩

/-- The full statement is false: one of the two is local time, the other is not.  A witness eight hours west. -/
theorem C98_agree_full_fails : ¬ C98_agree_full := by
  intro h
  have := h ⟨1700000000, 0, 480, 0⟩ (by unfold Zoned; decide) (by unfold InEra; decide)
  revert this
  decide +kernel

/-- A clock that meets the hypotheses. -/
example : InEra ⟨1700000000, 123456, 480, 1⟩ ∧ Zoned ⟨1700000000, 123456, 480, 1⟩ ∧ behind ⟨1700000000, 123456, 480, 1⟩ = 25200 ∧
    (⟨1700000000, 123456, 480, 1⟩ : Clock).now = ⟨3908988800, 530243520⟩ ∧
    (⟨1700000000, 123456, 480, 1⟩ : Clock).utToNtp 1700000000 = some ⟨3908963600, 0⟩ := by
  unfold InEra Zoned
  decide +kernel

end Libo.Props
