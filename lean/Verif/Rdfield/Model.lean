import Verif.Pktparse.Model
import Verif.Serial.Model
/-!
# Model of the accessors of RDATA fields (src/libknot/rrtype/) and of code that applies them to
records received in messages

RDATA are the `len` octets of `knot_rdata_t`. Reading anything outside of them is undefined
behaviour here, even where the code reads padding or a neighbouring record. A pointer to the inside
is the list of the octets from there to the end of the RDATA, as everywhere for uncompressed names.
-/
namespace Knot.Rdfield
open Knot
open Knot.Pktparse (PP)
open Knot.Rrwire (RR readBE)

abbrev Bytes := List UInt8

/-- `rdata->data + off`; pointing behind the end is undefined. -/
def at' (d : Bytes) (off : Nat) : Res Bytes := if off ≤ d.length then .ok (d.drop off) else .ub

/-- A length computed in wider arithmetic and returned as `uint16_t`. -/
def len16 (v : Int) : Nat := (v % 65536).toNat

/-! ## SOA -/

/-- `knot_soa_primary`. Source: src/libknot/rrtype/soa.h:31-35. -/
def soaPrimary (d : Bytes) : Res Bytes := at' d 0

/-- `knot_soa_mailbox`. Source: src/libknot/rrtype/soa.h:38-42. -/
def soaMailbox (d : Bytes) : Res Bytes := do
  let p ← soaPrimary d
  let n ← Dname.size p
  at' d n

/-- `knot_soa_names_len`. Source: src/libknot/rrtype/soa.h:45-50. -/
def soaNamesLen (d : Bytes) : Res Nat := do
  let p ← soaPrimary d
  let a ← Dname.size p
  let m ← soaMailbox d
  let b ← Dname.size m
  .ok (a + b)

/-- `knot_wire_read_u32` at an offset behind the names. -/
def soaNumber (d : Bytes) (off : Nat) : Res Nat := do
  let n ← soaNamesLen d
  readBE d (n + off) 4

/-- `knot_soa_serial`. Source: src/libknot/rrtype/soa.h:53-57. -/
def soaSerial (d : Bytes) : Res Nat := soaNumber d 0
/-- `knot_soa_refresh`. Source: src/libknot/rrtype/soa.h:67-71. -/
def soaRefresh (d : Bytes) : Res Nat := soaNumber d 4
/-- `knot_soa_retry`. Source: src/libknot/rrtype/soa.h:74-78. -/
def soaRetry (d : Bytes) : Res Nat := soaNumber d 8
/-- `knot_soa_expire`. Source: src/libknot/rrtype/soa.h:81-85. -/
def soaExpire (d : Bytes) : Res Nat := soaNumber d 12
/-- `knot_soa_minimum`. Source: src/libknot/rrtype/soa.h:88-92. -/
def soaMinimum (d : Bytes) : Res Nat := soaNumber d 16

/-- `knot_soa_serial_set`. Source: src/libknot/rrtype/soa.h:60-64. -/
def soaSerialSet (d : Bytes) (serial : Nat) : Res Bytes := do
  let n ← soaNamesLen d
  WireCtx.store d n (WireCtx.beBytes 4 serial)

/-! ## RRSIG -/

/-- `knot_rrsig_type_covered`. Source: src/libknot/rrtype/rrsig.h:31-35. -/
def rrsigCovered (d : Bytes) : Res Nat := readBE d 0 2
/-- `knot_rrsig_alg`. Source: src/libknot/rrtype/rrsig.h:38-42. -/
def rrsigAlg (d : Bytes) : Res Nat := readBE d 2 1
/-- `knot_rrsig_labels`. Source: src/libknot/rrtype/rrsig.h:45-49. -/
def rrsigLabels (d : Bytes) : Res Nat := readBE d 3 1
/-- `knot_rrsig_original_ttl`. Source: src/libknot/rrtype/rrsig.h:52-56. -/
def rrsigTtl (d : Bytes) : Res Nat := readBE d 4 4
/-- `knot_rrsig_sig_expiration`. Source: src/libknot/rrtype/rrsig.h:59-63. -/
def rrsigExpiration (d : Bytes) : Res Nat := readBE d 8 4
/-- `knot_rrsig_sig_inception`. Source: src/libknot/rrtype/rrsig.h:66-70. -/
def rrsigInception (d : Bytes) : Res Nat := readBE d 12 4
/-- `knot_rrsig_key_tag`. Source: src/libknot/rrtype/rrsig.h:73-77. -/
def rrsigKeyTag (d : Bytes) : Res Nat := readBE d 16 2
/-- `knot_rrsig_signer_name`. Source: src/libknot/rrtype/rrsig.h:80-84. -/
def rrsigSigner (d : Bytes) : Res Bytes := at' d 18

/-- `knot_rrsig_signature_len`. Source: src/libknot/rrtype/rrsig.h:87-91. -/
def rrsigSignatureLen (d : Bytes) : Res Nat := do
  let s ← rrsigSigner d
  let n ← Dname.size s
  .ok (len16 ((d.length : Int) - 18 - n))

/-- The octets at `knot_rrsig_signature`, as many as `knot_rrsig_signature_len` says: what is passed
to the verification. Source: src/libknot/rrtype/rrsig.h:94-98; src/knot/dnssec/rrset-sign.c:403-406. -/
def rrsigSignature (d : Bytes) : Res Bytes := do
  let s ← rrsigSigner d
  let n ← Dname.size s
  let k ← rrsigSignatureLen d
  WireCtx.load d (18 + n) k

/-! ## NSEC -/

/-- `knot_nsec_next`. Source: src/libknot/rrtype/nsec.h:30-34. -/
def nsecNext (d : Bytes) : Res Bytes := at' d 0

/-- `knot_nsec_bitmap_len`. Source: src/libknot/rrtype/nsec.h:37-41. -/
def nsecBitmapLen (d : Bytes) : Res Nat := do
  let s ← nsecNext d
  let n ← Dname.size s
  .ok (len16 ((d.length : Int) - n))

/-- The octets at `knot_nsec_bitmap`, as many as `knot_nsec_bitmap_len` says.
Source: src/libknot/rrtype/nsec.h:44-48; src/knot/dnssec/nsec-chain.c:209-216. -/
def nsecBitmap (d : Bytes) : Res Bytes := do
  let s ← nsecNext d
  let n ← Dname.size s
  let k ← nsecBitmapLen d
  WireCtx.load d n k

/-! ## NSEC3 and NSEC3PARAM -/

/-- `knot_nsec3_alg`, `knot_nsec3param_alg`.
Source: src/libknot/rrtype/nsec3.h:36-40; src/libknot/rrtype/nsec3param.h:30-34. -/
def nsec3Alg (d : Bytes) : Res Nat := readBE d 0 1
/-- `knot_nsec3_flags`, `knot_nsec3param_flags`.
Source: src/libknot/rrtype/nsec3.h:43-47; src/libknot/rrtype/nsec3param.h:37-41. -/
def nsec3Flags (d : Bytes) : Res Nat := readBE d 1 1
/-- `knot_nsec3_iters`, `knot_nsec3param_iters`.
Source: src/libknot/rrtype/nsec3.h:50-54; src/libknot/rrtype/nsec3param.h:44-48. -/
def nsec3Iters (d : Bytes) : Res Nat := readBE d 2 2
/-- `knot_nsec3_salt_len`, `knot_nsec3param_salt_len`.
Source: src/libknot/rrtype/nsec3.h:57-61; src/libknot/rrtype/nsec3param.h:51-55. -/
def nsec3SaltLen (d : Bytes) : Res Nat := readBE d 4 1

/-- The octets at `knot_nsec3_salt` or `knot_nsec3param_salt`, as many as the length before them says.
Source: src/libknot/rrtype/nsec3.h:64-68; src/libknot/rrtype/nsec3param.h:58-62. -/
def nsec3Salt (d : Bytes) : Res Bytes := do
  let n ← nsec3SaltLen d
  WireCtx.load d 5 n

/-- `knot_nsec3_next_len`. Source: src/libknot/rrtype/nsec3.h:71-75. -/
def nsec3NextLen (d : Bytes) : Res Nat := do
  let n ← nsec3SaltLen d
  readBE d (5 + n) 1

/-- The octets at `knot_nsec3_next`, as many as `knot_nsec3_next_len` says.
Source: src/libknot/rrtype/nsec3.h:78-82; src/knot/dnssec/nsec3-chain.c:281-283. -/
def nsec3Next (d : Bytes) : Res Bytes := do
  let n ← nsec3SaltLen d
  let k ← nsec3NextLen d
  WireCtx.load d (6 + n) k

/-- `knot_nsec3_bitmap_len`. Source: src/libknot/rrtype/nsec3.h:85-89. -/
def nsec3BitmapLen (d : Bytes) : Res Nat := do
  let n ← nsec3SaltLen d
  let k ← nsec3NextLen d
  .ok (len16 ((d.length : Int) - 6 - n - k))

/-- The octets at `knot_nsec3_bitmap`, as many as `knot_nsec3_bitmap_len` says.
Source: src/libknot/rrtype/nsec3.h:92-96. -/
def nsec3Bitmap (d : Bytes) : Res Bytes := do
  let n ← nsec3SaltLen d
  let k ← nsec3NextLen d
  let b ← nsec3BitmapLen d
  WireCtx.load d (6 + n + k) b

/-! ## DNSKEY and DS -/

/-- `knot_dnskey_flags`. Source: src/libknot/rrtype/dnskey.h:38-42. -/
def dnskeyFlags (d : Bytes) : Res Nat := readBE d 0 2
/-- `knot_dnskey_proto`. Source: src/libknot/rrtype/dnskey.h:45-49. -/
def dnskeyProto (d : Bytes) : Res Nat := readBE d 2 1
/-- `knot_dnskey_alg`. Source: src/libknot/rrtype/dnskey.h:52-56. -/
def dnskeyAlg (d : Bytes) : Res Nat := readBE d 3 1
/-- `knot_dnskey_key_len`. Source: src/libknot/rrtype/dnskey.h:59-63. -/
def dnskeyKeyLen (d : Bytes) : Nat := len16 ((d.length : Int) - 4)
/-- The octets at `knot_dnskey_key`, as many as `knot_dnskey_key_len` says.
Source: src/libknot/rrtype/dnskey.h:66-70. -/
def dnskeyKey (d : Bytes) : Res Bytes := WireCtx.load d 4 (dnskeyKeyLen d)

/-- `knot_ds_key_tag`. Source: src/libknot/rrtype/ds.h:30-34. -/
def dsKeyTag (d : Bytes) : Res Nat := readBE d 0 2
/-- `knot_ds_alg`. Source: src/libknot/rrtype/ds.h:37-41. -/
def dsAlg (d : Bytes) : Res Nat := readBE d 2 1
/-- `knot_ds_digest_type`. Source: src/libknot/rrtype/ds.h:44-48. -/
def dsDigestType (d : Bytes) : Res Nat := readBE d 3 1
/-- `knot_ds_digest_len`. Source: src/libknot/rrtype/ds.h:51-55. -/
def dsDigestLen (d : Bytes) : Nat := len16 ((d.length : Int) - 4)
/-- The octets at `knot_ds_digest`, as many as `knot_ds_digest_len` says.
Source: src/libknot/rrtype/ds.h:58-62. -/
def dsDigest (d : Bytes) : Res Bytes := WireCtx.load d 4 (dsDigestLen d)

/-! ## ZONEMD -/

/-- `knot_zonemd_soa_serial`. Source: src/libknot/rrtype/zonemd.h:34-38. -/
def zonemdSerial (d : Bytes) : Res Nat := readBE d 0 4
/-- `knot_zonemd_scheme`. Source: src/libknot/rrtype/zonemd.h:41-45. -/
def zonemdScheme (d : Bytes) : Res Nat := readBE d 4 1
/-- `knot_zonemd_algorithm`. Source: src/libknot/rrtype/zonemd.h:48-52. -/
def zonemdAlg (d : Bytes) : Res Nat := readBE d 5 1

/-- `knot_zonemd_digest_size`. Source: src/libknot/rrtype/zonemd.h:55-62. -/
def zonemdDigestSize (d : Bytes) : Res Nat := do
  let a ← zonemdAlg d
  .ok (if a = 1 then 48 else if a = 2 then 64 else 0)

/-- The octets at `knot_zonemd_digest`, as many as `knot_zonemd_digest_size` says.
Source: src/libknot/rrtype/zonemd.h:65-69; src/knot/zone/digest.c:168. -/
def zonemdDigest (d : Bytes) : Res Bytes := do
  let k ← zonemdDigestSize d
  WireCtx.load d 6 k

/-! ## Names in RDATA -/

/-- `knot_rdata_name`; `none` is NULL. The accessors it calls are inlined.
Source: src/libknot/rrtype/rdname.h:32-96; src/libknot/rrtype/svcb.h:38-42. -/
def rdataName (type : Nat) (d : Bytes) : Res (Option Bytes) :=
  if type = 2 ∨ type = 12 then some <$> at' d 0
  else if type = 15 then some <$> at' d 2
  else if type = 33 then some <$> at' d 6
  else if type = 5 ∨ type = 39 then some <$> at' d 0
  else if type = 64 ∨ type = 65 then some <$> at' d 2
  else .ok none

/-! ## Code that reads the fields of received records -/

/-- `knot_pkt_rr(section, i)` for an existing record of the section.
Source: src/libknot/packet/pkt.h:286-291. -/
def sectionRR (p : PP) (sec i : Nat) : Option RR :=
  if i < p.secCount sec then p.rrs[p.secPos sec + i]? else none

/-- `knot_dname_is_equal` of the question name and an owner; NULL equals nothing.
Source: src/libknot/packet/pkt.h:183-190; src/knot/nameserver/internet.h:38-43. -/
def qnameIs (p : PP) (owner : Bytes) : Res Bool :=
  if p.qnameSize = 0 then .ok false else Dname.isEqual p.lowerQname owner

/-- The serial a client has, from its IXFR query: the checks of `ixfr_query_check` on the records and
the reading in `ixfr_answer_init`. The conditions on the zone, the access rights, and the
configuration are assumed to hold. Source: src/knot/nameserver/ixfr.c:139-149, 208-210. -/
def ixfrQuerySerial (p : PP) : Res Nat :=
  match sectionRR p 1 0 with
  | none => .err .emalf
  | some rr =>
    if rr.type ≠ 6 then .err .emalf
    else do
      let same ← qnameIs p rr.owner
      if same then soaSerial rr.rdata else .err .emalf

/-- The serial announced in a NOTIFY message, if any.
Source: src/knot/nameserver/notify.c:67-86. -/
def notifySerial (p : PP) : Res (Option Nat) :=
  match sectionRR p 0 0 with
  | none => .ok none
  | some rr => if rr.type = 6 then some <$> soaSerial rr.rdata else .ok none

/-- The serial of a primary server from its answer to a SOA query: `soa_query_consume`. Received sets
hold one record each. Source: src/knot/events/handlers/refresh.c:1094-1116. -/
def soaAnswerSerial (p : PP) : Res Nat :=
  match (if p.secCount 0 = 1 then sectionRR p 0 0 else none) with
  | none => .err .emalf
  | some rr => if rr.type ≠ 6 then .err .emalf else soaSerial rr.rdata

/-- `skip_soa`, for a record of a dynamic update and the serial of the zone.
Source: src/knot/updates/ddns.c:308-317. -/
def skipSoa (rr : RR) (sn : Nat) : Res Bool :=
  if rr.type ≠ 6 then .ok false
  else if rr.rclass = 254 ∨ rr.rclass = 255 then .ok true
  else do
    let s ← soaSerial rr.rdata
    let c ← Serial.serialCompare s sn
    .ok (c ≠ .greater)

/-- The name of a record for which additional records are looked up: whether it is below the apex of
the zone, by `knot_dname_in_bailiwick`. Source: src/knot/zone/adds_tree.c:62-63. -/
def additionalBelow (type : Nat) (d apex : Bytes) : Res Bool := do
  match ← rdataName type d with
  | none => .ub
  | some n =>
    match Dname.inBailiwick n apex with
    | .ok k => .ok (0 < k)
    | .err _ => .ok false
    | .ub => .ub

/-- `node_rrtype_is_signed`, for the RDATA of the RRSIG records of the node.
Source: src/knot/zone/node.c:422-443. -/
def isSigned (type : Nat) : List Bytes → Res Bool
  | [] => .ok false
  | d :: ds => do
    let c ← rrsigCovered d
    if c = type then .ok true else isSigned type ds

/-- NSEC3 parameters. Source: src/libdnssec/nsec.h:49-54. -/
structure Params where
  alg : Nat
  flags : Nat
  iters : Nat
  salt : Bytes
  deriving DecidableEq, Repr

/-- `dnssec_nsec3_params_from_rdata`. Source: src/libdnssec/nsec/nsec.c:44-79. -/
def paramsFromRdata (d : Bytes) : Res Params :=
  if d.length < 5 then .err .malformed
  else do
    let a ← nsec3Alg d
    let f ← nsec3Flags d
    let i ← nsec3Iters d
    let n ← nsec3SaltLen d
    if d.length - 5 ≠ n then .err .malformed
    else do
      let s ← WireCtx.load d 5 n
      .ok ⟨a, f, i, s⟩

/-- `nsec3_params_match`. Source: src/knot/zone/adjust.c:130-144. -/
def paramsMatch (d : Bytes) (p : Params) : Res Bool := do
  let a ← nsec3Alg d
  if a ≠ p.alg then .ok false
  else do
    let i ← nsec3Iters d
    if i ≠ p.iters then .ok false
    else do
      let n ← nsec3SaltLen d
      if n ≠ p.salt.length then .ok false
      else do
        let s ← WireCtx.load d 5 p.salt.length
        .ok (s = p.salt)

/-- `match_key_ds`; `create` stands for `dnssec_key_create_ds` with the key.
Source: src/knot/dnssec/ds_query.c:34-54. -/
def matchDs (create : Nat → Option Bytes) (d : Bytes) : Res Bool := do
  let t ← dsDigestType d
  match create t with
  | none => .ok false
  | some c => .ok (c = d)

/-- `check_duplicate_schalg`, the records before the checked one being given.
Source: src/knot/zone/digest.c:198-211. -/
def noDuplicate (scheme alg : Nat) : List Bytes → Res Bool
  | [] => .ok true
  | d :: ds => do
    let s ← zonemdScheme d
    if s ≠ scheme then noDuplicate scheme alg ds
    else do
      let a ← zonemdAlg d
      if a = alg then .ok false else noDuplicate scheme alg ds

/-- `verify_zonemd`; `digest` stands for `zone_contents_digest`.
Source: src/knot/zone/digest.c:155-173. -/
def verifyZonemd (digest : Nat → Res Bytes) (d : Bytes) : Res Unit := do
  let a ← zonemdAlg d
  let c ← digest a
  let k ← zonemdDigestSize d
  if c.length ≠ k then .err .efewdata
  else do
    let s ← WireCtx.load d 6 c.length
    if s = c then .ok () else .err .emalf

/-- Whether a ZONEMD record is one that can be checked.
Source: src/knot/zone/digest.c:228-230. -/
def zonemdUsable (serial : Nat) (d : Bytes) : Res Bool := do
  let s ← zonemdScheme d
  if s ≠ 1 then .ok false
  else do
    let k ← zonemdDigestSize d
    if k = 0 then .ok false
    else do
      let n ← zonemdSerial d
      .ok (n = serial)

/-- The loop of `zone_contents_digest_verify`: `done` are the records gone through.
Source: src/knot/zone/digest.c:226-238. -/
def zonemdPick (serial : Nat) (done : List Bytes) (found : Option Bytes) : List Bytes → Res (Option Bytes)
  | [] => .ok found
  | d :: ds => do
    let u ← zonemdUsable serial d
    let s ← zonemdScheme d
    let a ← zonemdAlg d
    let fresh ← noDuplicate s a done
    if fresh then zonemdPick serial (done ++ [d]) (if u then some d else found) ds
    else .err .esemcheck

/-- `zone_contents_digest_verify`, for the RDATA of the ZONEMD records at the apex and the serial of the
zone; a zone without such records gives ENOENT. Source: src/knot/zone/digest.c:213-241. -/
def zonemdVerify (digest : Nat → Res Bytes) (serial : Nat) (ds : List Bytes) : Res Unit :=
  if ds = [] then .err .enoent
  else do
    match ← zonemdPick serial [] none ds with
    | none => .err .enotsup
    | some d => verifyZonemd digest d

end Knot.Rdfield
