import Verif.Syncache.Cookie
/-! # Cookies: a cookie is recognised -/
namespace Verif.Syncache

/-- The index a cookie carries. -/
def mssIdx (cfg : Cfg) (mo : Nat) (sc : Sc) : Nat := mssLoop 7 (max (min sc.peerMss mo) cfg.minMss)

/-- The digest of a cookie. -/
def digest (cfg : Cfg) (b : Bucket) (mo : Nat) (sc : Sc) : Nat → W :=
  cfg.md5 (hashed cfg (b.sec b.oddeven) 7 sc.inc sc.irs (params b.oddeven (mssIdx cfg mo sc)))

theorem generate_iss (cfg : Cfg) (b : Bucket) (mo : Nat) (tick : W) (sc : Sc) (h : sc.iss = 31415) :
    (generate cfg b mo tick sc).iss = params b.oddeven (mssIdx cfg mo sc) ||| digest cfg b mo sc 0 <<< 7 := by
  have e : (sc.iss &&& 7).toNat = 7 := by rw [h]; decide
  unfold generate
  simp only [e]
  rw [h]
  split <;> rfl

theorem generate_ts (cfg : Cfg) (b : Bucket) (mo : Nat) (tick : W) (sc : Sc) (h : sc.iss = 31415) (ht : sc.tsF = true) :
    (generate cfg b mo tick sc).ts = payload sc.sack sc.sScale sc.rScale (digest cfg b mo sc 2) ^^^ digest cfg b mo sc 3 := by
  have e : (sc.iss &&& 7).toNat = 7 := by rw [h]; decide
  unfold generate
  simp only [e, ht, if_true]
  rw [h]; rfl

/-- The parts `generate` leaves alone. -/
theorem generate_rest (cfg : Cfg) (b : Bucket) (mo : Nat) (tick : W) (sc : Sc) :
    generate cfg b mo tick sc = { sc with iss := (generate cfg b mo tick sc).iss, ts := (generate cfg b mo tick sc).ts, tsoff := (generate cfg b mo tick sc).tsoff } := by
  unfold generate; simp only; split <;> rfl

/-- The entry a returning cookie stands for. -/
def restored (sc : Sc) (iss : W) (win : Int) (idx : Nat) : Sc :=
  { id := none, inc := sc.inc, irs := sc.irs, iss := iss, wnd := clip win, rxmits := 0, tsF := false, tsreflect := 0, ts := 0, tsoff := 0,
    scaleF := false, sScale := 0, rScale := 0, sack := false, ecn := false, noopt := false, unreach := false, peerMss := msstab idx }

theorem cookie_plain (cfg : Cfg) {b b' : Bucket} {mo : Nat} {tick tick' : W} {sc : Sc} {o : Opts} {win : Int} {now : Nat} (h : sc.iss = 31415)
    (hsec : b'.sec b.oddeven = b.sec b.oddeven) (hold : now ≤ b'.reseed + 16) (ho : o.ts = none) :
    cookieLookup cfg b' sc.inc ((generate cfg b mo tick sc).iss + 1) (sc.irs + 1) o win now tick' =
      some { restored sc (generate cfg b mo tick sc).iss win (mssIdx cfg mo sc) with noopt := true } := by
  have g := generate_iss cfg b mo tick sc h
  have lt : mssIdx cfg mo sc < 8 := by have := mssLoop_le 7 (max (min sc.peerMss mo) cfg.minMss); unfold mssIdx; omega
  obtain ⟨p1, p2, p3, p4, p5⟩ := params_read b.oddeven lt (digest cfg b mo sc 0)
  rw [← g] at p1 p2 p3 p4
  unfold cookieLookup
  simp only [BitVec.add_sub_cancel, p1, p2, p3, p4, p5, hsec, ho]
  rw [if_neg (by omega)]
  have d0 : cfg.md5 (hashed cfg (b.sec b.oddeven) 7 sc.inc sc.irs (params b.oddeven (mssIdx cfg mo sc))) = digest cfg b mo sc := rfl
  rw [d0, if_neg (by simp)]
  simp [restored]

theorem cookie_ts (cfg : Cfg) {b b' : Bucket} {mo : Nat} {tick tick' : W} {sc : Sc} {o : Opts} {win : Int} {now : Nat} {val : W} (h : sc.iss = 31415)
    (ht : sc.tsF = true) (hs : sc.sScale ≤ 14) (hr : sc.rScale ≤ 14)
    (hsec : b'.sec b.oddeven = b.sec b.oddeven) (hold : now ≤ b'.reseed + 16) (ho : o.ts = some (val, (generate cfg b mo tick sc).ts)) :
    cookieLookup cfg b' sc.inc ((generate cfg b mo tick sc).iss + 1) (sc.irs + 1) o win now tick' =
      some (if payload sc.sack sc.sScale sc.rScale (digest cfg b mo sc 2) ≠ 0 then
        { restored sc (generate cfg b mo tick sc).iss win (mssIdx cfg mo sc) with
            tsF := true, tsreflect := val, ts := (generate cfg b mo tick sc).ts, tsoff := (generate cfg b mo tick sc).ts - tick', sack := sc.sack
            sScale := sc.sScale, rScale := sc.rScale, scaleF := sc.sScale ≠ 0 || sc.rScale ≠ 0 }
        else { restored sc (generate cfg b mo tick sc).iss win (mssIdx cfg mo sc) with noopt := true }) := by
  have g := generate_iss cfg b mo tick sc h
  have gt := generate_ts cfg b mo tick sc h ht
  have lt : mssIdx cfg mo sc < 8 := by have := mssLoop_le 7 (max (min sc.peerMss mo) cfg.minMss); unfold mssIdx; omega
  obtain ⟨p1, p2, p3, p4, p5⟩ := params_read b.oddeven lt (digest cfg b mo sc 0)
  obtain ⟨q1, q2, q3, q4⟩ := payload_read sc.sack (by omega : sc.sScale < 16) (by omega : sc.rScale < 16) (digest cfg b mo sc 2)
  rw [← g] at p1 p2 p3 p4
  have d0 : cfg.md5 (hashed cfg (b.sec b.oddeven) 7 sc.inc sc.irs (params b.oddeven (mssIdx cfg mo sc))) = digest cfg b mo sc := rfl
  have x : digest cfg b mo sc 3 ^^^ (generate cfg b mo tick sc).ts = payload sc.sack sc.sScale sc.rScale (digest cfg b mo sc 2) := by
    rw [gt, BitVec.xor_comm (payload _ _ _ _), ← BitVec.xor_assoc]; simp
  unfold cookieLookup
  simp only [BitVec.add_sub_cancel, p1, p2, p3, p4, p5, hsec, ho]
  rw [if_neg (by omega), d0, if_neg (by simp)]
  simp only [x, q1, q2, q3, q4, Option.isSome_some, Bool.true_and, ne_eq, not_true_eq_false, decide_false, if_false, Bool.false_eq_true]
  rw [Nat.min_eq_left hs, Nat.min_eq_left hr]
  split <;> simp [restored]

end Verif.Syncache
