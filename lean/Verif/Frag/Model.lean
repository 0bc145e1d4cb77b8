/-!
# Model of IPv4 fragmentation (`ofp_fragment_pkt`, src/ofp_pkt_processing.c:794-910)

Packet allocation and the output of each fragment are assumed to succeed (on failure the function returns
`OFP_PKT_DROP` after having sent a prefix of the fragments).  `none` = the loop does not terminate.
-/
namespace Verif.Frag

/-- A fragment as it is handed to `ofp_ip_output_continue`: option bytes, the 16-bit `ip_off` field in host order, and
payload; the other fields are copied from the packet (`*ip_new = *ip`) and `ip_len`, `ip_hl` follow from these. -/
structure Fragment where
  opts : List UInt8
  field : Nat
  data : List UInt8
deriving Repr, DecidableEq

/-- `ip_len` of a fragment (line 889): header plus payload. -/
def Fragment.len (f : Fragment) : Nat := 20 + f.opts.length + f.data.length

/-- `OFP_IPOPT_NUMBER` is EOL or NOP (lines 820-822; include/api/ofp_ip.h:145-153). -/
def isPad (o : UInt8) : Bool := o &&& 0x1f = 0 || o &&& 0x1f = 1
/-- `OFP_IPOPT_COPIED` (include/api/ofp_ip.h:143). -/
def isCopied (o : UInt8) : Bool := o &&& 0x80 ≠ 0

/-- The option loop (lines 817-834) from some position on: the bytes appended to `fopts`.  `after` is the byte that
follows the option area in memory: the length of an option in the last byte of the area is read there.  An option
with length byte 0 does not advance: `none`. -/
def optLoop (after : UInt8) (l : List UInt8) : Option (List UInt8) :=
  match l with
  | [] => some []
  | o :: l =>
    if isPad o then optLoop after l
    else
      let n := min (l.head?.getD after).toNat (l.length + 1)
      if _h : n = 0 then none
      else match optLoop after ((o :: l).drop n) with
        | none => none
        | some r => some ((if isCopied o then (o :: l).take n else []) ++ r)
termination_by l.length
decreasing_by all_goals simp only [List.length_cons, List.length_drop]; omega

/-- `while (fopts_len & 3) fopts[fopts_len++] = 0;` (line 836). -/
def padTo4 (l : List UInt8) : List UInt8 := l ++ List.replicate ((4 - l.length % 4) % 4) 0

/-- `(mtu - f_ip_hlen) & 0xfff8` (line 854), `int` arithmetic: a negative difference wraps. -/
def segLen (mtu hlen : Nat) : Nat := ((((mtu : Int) - hlen) % 65536).toNat / 8) * 8

/-- `OFP_IP_MF` set by `frag_new |= OFP_IP_MF` (line 894). -/
def setMf (field : Nat) : Nat := if field / 8192 % 2 = 1 then field else field + 8192

/-- The fragment loop (lines 847-906): `pl` is the payload from `pos` on, `opts` the options of the next fragment
(the packet's own for the first, `fopts` afterwards).  A segment length of 0 never advances: `none`. -/
def fragLoop (mtu frag : Nat) (fopts : List UInt8) (opts : List UInt8) (pos : Nat) (pl : List UInt8) :
    Option (List Fragment) :=
  if _h0 : pl = [] then some []
  else
    let seg := segLen mtu (20 + opts.length)
    let flen := min seg pl.length
    if _h : flen = 0 then none
    else
      let fn := (frag + pos / 8) % 65536
      let field := if flen < pl.length then setMf fn else fn
      match fragLoop mtu frag fopts fopts (pos + flen) (pl.drop flen) with
      | none => none
      | some r => some (⟨opts, field, pl.take flen⟩ :: r)
termination_by pl.length
decreasing_by simp only [List.length_drop]; have := List.length_pos_iff.2 _h0; omega

/-- `ofp_fragment_pkt` on a packet with option bytes `opts` (`ip_hlen = 20 + opts.length`), `ip_off` field `frag` and
payload `pl`. -/
def fragment (mtu : Nat) (opts : List UInt8) (frag : Nat) (pl : List UInt8) : Option (List Fragment) :=
  match optLoop (pl.head?.getD 0) opts with
  | none => none
  | some fo => fragLoop mtu frag (padTo4 fo) opts 0 pl

end Verif.Frag
