import Verif.Model.Heap
import Verif.Model.Setters

/-!
# Query objects in memory (`/repo/dnstable/query.c:54-74,123-514`)

The setters of `Verif.Model.Setters` again, with the blocks a query owns and the error text.
`wdns_str_to_name_case` allocates the name exactly if it succeeds.
-/

namespace Verif

/-- A query and the blocks it points to: `rdata`, `name.data`, `bailiwick.data`, `err`
(`/repo/dnstable/query.c:54-74`). -/
structure QueryMem where
  self : Nat
  q : Query
  rdata : Option Nat := none
  name : Option Nat := none
  bailiwick : Option Nat := none
  err : Option Nat := none
deriving DecidableEq, Repr

/-- `query_set_err`, `/repo/dnstable/query.c:123-128`. -/
def setErrMem (m : QueryMem) (text : Bytes) : Mem QueryMem := do
  mFree m.err
  let e ← mAlloc text
  pure { m with err := some e }

/-- `query_load_name`, `/repo/dnstable/query.c:130-144`, with `old` the value of `name->data`: the query, the new
`name->data`, the name in it, and success. -/
def loadNameMem (L : Libs) (m : QueryMem) (old : Option Nat) (s : Option Bytes) (caseSensitive : Bool) :
    Mem (QueryMem × Option Nat × Option Bytes × Bool) := do
  mFree old
  match s with
  | none => pure (m, none, none, true)
  | some s =>
    match L.strToName s with
    | none => do
      let m ← setErrMem m (lit "wdns_str_to_name() failed")
      pure (m, none, none, false)
    | some n => do
      let n := if caseSensitive then n else L.downcase n
      let p ← mAlloc n
      pure (m, some p, some n, true)

/-- `query_load_address`, `/repo/dnstable/query.c:146-159`. -/
def loadAddressMem (L : Libs) (m : QueryMem) (data : Bytes) : Mem (QueryMem × Bytes × Bool) :=
  match L.pton4 data with
  | some a => pure (m, a, true)
  | none =>
    match L.pton6 data with
    | some a => pure (m, a, true)
    | none => do
      let m ← setErrMem m (lit "inet_pton() failed")
      pure (m, [], false)

/-- `dnstable_query_init`, `/repo/dnstable/query.c:161-175`. -/
def queryInitMem (t : QType) : Mem QueryMem := do
  let q ← mPure (queryInit t)
  let p ← mAlloc []
  pure { self := p, q := q }

/-- `dnstable_query_destroy`, `/repo/dnstable/query.c:177-187`; `none` is a NULL pointer, as which the caller's pointer
is left. -/
def queryDestroyMem (m : Option QueryMem) : Mem (Option QueryMem) :=
  match m with
  | none => pure none
  | some m => do
    mTouch m.self
    mFree m.rdata
    mFree m.name
    mFree m.bailiwick
    mFree m.err
    mFree (some m.self)
    pure none

/-- `dnstable_query_get_error`, `/repo/dnstable/query.c:189-195`: the pointer to the text. -/
def getErrorMem (m : QueryMem) : Mem (QueryMem × Nat) := do
  mTouch m.self
  match m.err with
  | some p => pure (m, p)
  | none => do
    let p ← mAlloc (lit "unknown error")
    pure ({ m with err := some p }, p)

/-- `dnstable_query_set_bailiwick`, `/repo/dnstable/query.c:204-224`. -/
def setBailiwickMem (L : Libs) (m : QueryMem) (s : Option Bytes) : Mem (QueryMem × Bool) :=
  if m.q.qType ≠ .rrset then do
    let m ← setErrMem m (lit "bailiwick filtering not supported")
    pure (m, false)
  else do
    let (m, p, n, res) ← loadNameMem L m m.bailiwick s false
    let m := { m with bailiwick := p, q := { m.q with bailiwick := n } }
    match res, n with
    | false, _ => pure (m, false)
    | true, none => pure (m, true)
    | true, some n =>
      match reverseName n with
      | .ok r => do
        let rev ← mAlloc r
        mFree m.bailiwick
        pure ({ m with bailiwick := some rev, q := { m.q with bailiwick := some r } }, true)
      | _ => do
        let rev ← mAlloc []
        mFree (some rev)
        pure (m, false)

/-- `query_set_data_rrset_owner` and `query_set_data_rdata_name`, `/repo/dnstable/query.c:226-236`. -/
def setDataNameMem (L : Libs) (m : QueryMem) (s : Option Bytes) : Mem (QueryMem × Bool) := do
  let (m, p, n, res) ← loadNameMem L m m.name s m.q.caseSensitive
  pure ({ m with name := p, q := { m.q with name := n.getD [] } }, res)

/-- `query_set_data_rdata_raw`, `/repo/dnstable/query.c:238-245`, and the allocation of
`/repo/libmy/hex_decode.h:58-85`. -/
def setDataRawMem (m : QueryMem) (data : Option Bytes) : Mem (QueryMem × Bool) := do
  mFree m.rdata
  let m := { m with rdata := none, q := { m.q with rdata := none } }
  match data with
  | none => pure (m, true)
  | some hex =>
    if hex.length = 0 ∨ hex.length % 2 ≠ 0 then pure (m, false)
    else
      let m := { m with q := { m.q with lenRdata := hex.length / 2 } }
      match hexDecode hex with
      | .ok raw => do
        let p ← mAlloc raw
        pure ({ m with rdata := some p, q := { m.q with rdata := some raw } }, true)
      | _ => do
        let p ← mAlloc []
        mFree (some p)
        pure (m, false)

/-- `query_set_data_rdata_ip_range` from the copy of the text on, `/repo/dnstable/query.c:254-271`. -/
def setRangeMem (L : Libs) (m : QueryMem) (data : Bytes) : Mem (QueryMem × Bool) :=
  match tokens 45 data with
  | [addr1, addr2] => do
    let (m, a, ok1) ← loadAddressMem L m addr1
    let m := { m with q := { m.q with ip1 := a } }
    if ok1 then do
      let (m, b, ok2) ← loadAddressMem L m addr2
      let m := { m with q := { m.q with ip2 := b } }
      if ok2 then
        if m.q.ip1.length ≠ m.q.ip2.length then do
          let m ← setErrMem m (lit "address family mismatch in IP range")
          pure (m, false)
        else pure ({ m with q := withIpType m.q }, true)
      else pure (m, false)
    else pure (m, false)
  | _ => pure (m, false)

/-- `query_set_data_rdata_ip_range`, `/repo/dnstable/query.c:247-275`. -/
def setDataRangeMem (L : Libs) (m : QueryMem) (data : Bytes) : Mem (QueryMem × Bool) := do
  let s ← mAlloc data
  let r ← setRangeMem L m data
  mFree (some s)
  pure r

/-- `query_set_data_rdata_ip_prefix` between the copy of the text and `out`, `/repo/dnstable/query.c:289-325`. -/
def setPrefixMem (A : Arith) (L : Libs) (m : QueryMem) (data : Bytes) : Mem (QueryMem × Bool) :=
  match tokens 47 data with
  | [address, prefixLength] => do
    let (m, ip, res) ← loadAddressMem L m address
    if res then
      match strtolAll prefixLength with
      | none => pure (m, false)
      | some plen =>
        if (ip.length = 4 ∧ plen > 32) ∨ (ip.length = 16 ∧ plen > 128) then pure (m, false)
        else
          let p := (plen % 2 ^ 32).toNat
          if ip.length = 4 then do
            let lo ← mPure (ip4Lower A ip p)
            let hi ← mPure (ip4Upper A ip p)
            pure ({ m with q := { m.q with doRrtype := true, rrtype := 1, ip1 := lo, ip2 := hi } }, true)
          else if ip.length = 16 then do
            let lo ← mPure (ip6Lower A ip p)
            let hi ← mPure (ip6Upper A ip p)
            pure ({ m with q := { m.q with doRrtype := true, rrtype := 28, ip1 := lo, ip2 := hi } }, true)
          else pure (m, false)
    else pure (m, false)
  | _ => pure (m, false)

/-- `query_set_data_rdata_ip_prefix`, `/repo/dnstable/query.c:276-332`. -/
def setDataPrefixMem (A : Arith) (L : Libs) (m : QueryMem) (data : Bytes) : Mem (QueryMem × Bool) := do
  let s ← mAlloc data
  let (m, res) ← setPrefixMem A L m data
  let m ← if res then pure m else setErrMem m (lit "unable to parse IP prefix")
  mFree (some s)
  pure (m, res)

/-- `query_set_data_rdata_ip_address`, `/repo/dnstable/query.c:334-346`. -/
def setDataAddressMem (L : Libs) (m : QueryMem) (data : Bytes) : Mem (QueryMem × Bool) := do
  let m := { m with q := { m.q with ip2 := [] } }
  let (m, a, res) ← loadAddressMem L m data
  let m := { m with q := { m.q with ip1 := a } }
  if res then pure ({ m with q := withIpType m.q }, true) else pure (m, false)

/-- `query_set_data_rdata_ip`, `/repo/dnstable/query.c:348-364`. -/
def setDataIpMem (A : Arith) (L : Libs) (m : QueryMem) (data : Option Bytes) : Mem (QueryMem × Bool) :=
  match data with
  | none => pure ({ m with q := { m.q with ip1 := [], ip2 := [] } }, true)
  | some s =>
    if 45 ∈ s then setDataRangeMem L m s
    else if 47 ∈ s then setDataPrefixMem A L m s
    else setDataAddressMem L m s

/-- A setter that touches no memory but the query itself.  (`/repo/dnstable/query.c:197-202,366-390,438-514`.) -/
def plainMem (m : QueryMem) (r : Query × Bool) : Mem (QueryMem × Bool) := pure ({ m with q := r.1 }, r.2)

/-- `dnstable_query_set_data`, `/repo/dnstable/query.c:392-408`. -/
def setDataMem (A : Arith) (L : Libs) (m : QueryMem) (data : Option Bytes) : Mem (QueryMem × Bool) :=
  match m.q.qType with
  | .rrset => setDataNameMem L m data
  | .rdataName => setDataNameMem L m data
  | .rdataIp => setDataIpMem A L m data
  | .rdataRaw => setDataRawMem m data
  | .version => plainMem m (setVersionType m.q data)
  | _ => pure (m, false)

/-- `dnstable_query_set_rrtype`, `/repo/dnstable/query.c:410-436`. -/
def setRrtypeMem (L : Libs) (m : QueryMem) (s : Option Bytes) : Mem (QueryMem × Bool) :=
  match s with
  | none => pure ({ m with q := { m.q with doRrtype := false } }, true)
  | some s =>
    if sameNoCase s (lit "ANY") ∨ sameNoCase s (lit "TYPE255") ∨ sameNoCase s (lit "ANY-DNSSEC") then
      pure ({ m with q := { m.q with doRrtype := false } }, true)
    else
      let rrtype := L.strToRrtype s % 2 ^ 16
      if rrtype = 0 then do
        let m ← setErrMem m (lit "unknown rrtype mnemonic")
        pure (m, false)
      else pure ({ m with q := { m.q with rrtype := rrtype, doRrtype := true } }, true)

/-- One setter call, `/repo/dnstable/query.c:197-514`. -/
def setterMem (A : Arith) (L : Libs) (m : QueryMem) (s : Setter) : Mem (QueryMem × Bool) := do
  mTouch m.self
  match s with
  | .caseSensitive b => plainMem m ({ m.q with caseSensitive := b }, true)
  | .bailiwick s => setBailiwickMem L m s
  | .data s => setDataMem A L m s
  | .rrtype s => setRrtypeMem L m s
  | .offset n => plainMem m ({ m.q with offset := n }, true)
  | .aggregated b => plainMem m ({ m.q with aggregated := b }, true)
  | .timeout t => plainMem m (setTimeout m.q t)
  | .deadline t => plainMem m (setDeadlineParam m.q t)
  | .filterParam p v n => plainMem m (setFilterParameter m.q p v n)

/-- The calls of a user that leave the query in place (`/repo/dnstable/query.c:189-514`). -/
inductive QueryCall where
  | set (s : Setter)
  | getError
deriving DecidableEq, Repr

/-- What a call returns: success or not, or a pointer to a text (`/repo/dnstable/query.c:189-514`). -/
inductive QueryAnswer where
  | result (b : Bool)
  | text (p : Nat)
deriving DecidableEq, Repr

/-- One call, `/repo/dnstable/query.c:189-514`. -/
def queryCallMem (A : Arith) (L : Libs) (m : QueryMem) : QueryCall → Mem (QueryMem × QueryAnswer)
  | .set s => do
    let (m, b) ← setterMem A L m s
    pure (m, .result b)
  | .getError => do
    let (m, p) ← getErrorMem m
    pure (m, .text p)

/-- Several calls in order, `/repo/dnstable/query.c:189-514`. -/
def queryCallsMem (A : Arith) (L : Libs) (m : QueryMem) : List QueryCall → Mem (QueryMem × List QueryAnswer)
  | [] => pure (m, [])
  | c :: cs => do
    let (m, a) ← queryCallMem A L m c
    let (m, as) ← queryCallsMem A L m cs
    pure (m, a :: as)

end Verif
