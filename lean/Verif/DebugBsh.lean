import Verif.Keccak
/-!
Model of the debug services (C180): javascore/debug-bsh/src/main/java/foundation/icon/btp/DebugBSH.java (J) and
solidity/debug-bsh/contracts/DebugBSH.sol (S).

The message center is a predicate that says which calls it takes. Neither contract looks at its caller, so handlers have no caller here. Left
out: the 256-bit limit of the number in S, and gas.
-/
namespace Verif.DebugBsh

abbrev Name := List Char
abbrev Bytes := List UInt8

/-- A call of `sendMessage` of a message center: its address, and the arguments in the center's order. -/
structure Call where
  bmc : Nat
  to : Name
  svc : Name
  sn : Int
  msg : Bytes
deriving DecidableEq

/-- The events; those of S have the fields in the order declared (S 13). -/
inductive Ev where
  | message (from_ svc : Name) (sn : Int) (msg : Bytes)
  | error (src svc : Name) (sn code : Int) (msg : Name)
  | sent (bmc : Nat) (svc to : Name) (sn : Int) (msg : Bytes)
deriving DecidableEq

/-- Set up: the message center and the name of the service (J 33-37, S 17-21); `takes`: the calls a center takes from this contract. -/
structure Cfg where
  bmc : Nat
  svc : Name
  takes : Call → Bool

/-- The number, the calls of message centers and the events so far. -/
structure St where
  sn : Int
  out : List Call
  log : List Ev
deriving DecidableEq

/-- J 34, S 20 -/
def init : St := ⟨0, [], []⟩

/-- A call of a message center; `none` is a revert. -/
def post (C : Cfg) (c : Call) (s : St) : Option St := if C.takes c = true then some { s with out := s.out ++ [c] } else none

/-! ### ICON -/

/-- J 57-61 `sendRawMessage(_bmc, _svc, _network, _sn, _msg)`, 83-89: the second argument is the service, the third the network. -/
def jRaw (C : Cfg) (bmc : Nat) (svc network : Name) (sn : Int) (msg : Bytes) (s : St) : Option St := post C ⟨bmc, network, svc, sn, msg⟩ s

/-- J 49-55 `sendMessage`: calls `sendRawMessage(bmc, _to, svc, sn, _msg)`; 63-67: the number is raised first. -/
def jSend (C : Cfg) (to : Name) (msg : Bytes) (s : St) : Option St := jRaw C C.bmc to C.svc (s.sn + 1) msg { s with sn := s.sn + 1 }

/-- J 39-42 -/
def jMessage (from_ svc : Name) (sn : Int) (msg : Bytes) (s : St) : St := { s with log := s.log ++ [.message from_ svc sn msg] }

/-- J 44-47 -/
def jError (src svc : Name) (sn code : Int) (msg : Name) (s : St) : St := { s with log := s.log ++ [.error src svc sn code msg] }

/-! ### EVM -/

/-- S 23-35 `sendRawMessage(_bmc, _to, _svc, _sn, _msg)`; 34: the event is given `_to` before `_svc`. -/
def sRaw (C : Cfg) (bmc : Nat) (to svc : Name) (sn : Int) (msg : Bytes) (s : St) : Option St :=
  (post C ⟨bmc, to, svc, sn, msg⟩ s).map fun s => { s with log := s.log ++ [.sent bmc to svc sn msg] }

/-- S 37-39 `sendMessage`: the number is raised after its use. -/
def sSend (C : Cfg) (to : Name) (msg : Bytes) (s : St) : Option St := sRaw C C.bmc to C.svc s.sn msg { s with sn := s.sn + 1 }

/-- S 55: "DebugBSH: Success" -/
def success : Bytes := [0x44, 0x65, 0x62, 0x75, 0x67, 0x42, 0x53, 0x48, 0x3a, 0x20, 0x53, 0x75, 0x63, 0x63, 0x65, 0x73, 0x73]
/-- S 74: "DebugBSH: Failure" -/
def failure : Bytes := [0x44, 0x65, 0x62, 0x75, 0x67, 0x42, 0x53, 0x48, 0x3a, 0x20, 0x46, 0x61, 0x69, 0x6c, 0x75, 0x72, 0x65]

/-- S 41-57 `handleBTPMessage` -/
def sMessage (C : Cfg) (from_ svc : Name) (sn : Int) (_msg : Bytes) (s : St) : Option St := post C ⟨C.bmc, from_, svc, sn, success⟩ s

/-- S 59-76 `handleBTPError` -/
def sError (C : Cfg) (from_ svc : Name) (sn _code : Int) (_msg : Name) (s : St) : Option St := post C ⟨C.bmc, from_, svc, sn, failure⟩ s

/-! ### C180 -/

/-- On ICON a message sent names the service as the network and the network as the service. -/
theorem C180_icon_swapped (C : Cfg) (to : Name) (msg : Bytes) (s s' : St) (h : jSend C to msg s = some s') :
    s'.sn = s.sn + 1 ∧ s'.log = s.log ∧ s'.out = s.out ++ [⟨C.bmc, C.svc, to, s.sn + 1, msg⟩] := by
  unfold jSend jRaw post at h
  split at h
  · cases h; exact ⟨rfl, rfl, rfl⟩
  · cases h

/-- So with a center that takes only calls for names of services registered for this contract, sending fails whenever the network has not the name
of a service registered for it. -/
theorem C180_icon_never (C : Cfg) (mine : Name → Bool) (hc : ∀ c, C.takes c = true → mine c.svc = true) (to : Name) (hto : mine to = false)
    (msg : Bytes) (s : St) : jSend C to msg s = none := by
  unfold jSend jRaw post
  rw [if_neg]
  intro h
  have := hc _ h
  rw [hto] at this
  cases this

/-- Sent by hand with the arguments in the order of the method, it goes where it should, for every center that takes it. -/
theorem C180_icon_raw (C : Cfg) (bmc : Nat) (svc network : Name) (sn : Int) (msg : Bytes) (s : St) :
    jRaw C bmc svc network sn msg s =
      if C.takes ⟨bmc, network, svc, sn, msg⟩ = true then some { s with out := s.out ++ [⟨bmc, network, svc, sn, msg⟩] } else none := rfl

/-- On ICON what comes in is noted as it is, and answered by nothing. -/
theorem C180_icon_notes (from_ svc src : Name) (sn code : Int) (msg : Bytes) (text : Name) (s : St) :
    (jMessage from_ svc sn msg s).log = s.log ++ [.message from_ svc sn msg] ∧ (jMessage from_ svc sn msg s).out = s.out ∧
      (jMessage from_ svc sn msg s).sn = s.sn ∧ (jError src svc sn code text s).log = s.log ++ [.error src svc sn code text] ∧
      (jError src svc sn code text s).out = s.out ∧ (jError src svc sn code text s).sn = s.sn := ⟨rfl, rfl, rfl, rfl, rfl, rfl⟩

/-- On the EVM the message goes to the network given in the name of the service, but the event tells the network as the service. -/
theorem C180_evm_sends (C : Cfg) (to : Name) (msg : Bytes) (s s' : St) (h : sSend C to msg s = some s') :
    s'.sn = s.sn + 1 ∧ s'.out = s.out ++ [⟨C.bmc, to, C.svc, s.sn, msg⟩] ∧ s'.log = s.log ++ [.sent C.bmc to C.svc s.sn msg] := by
  unfold sSend sRaw post at h
  split at h
  · cases h; exact ⟨rfl, rfl, rfl⟩
  · cases h

/-- The first message of a service on the EVM has number 0, which centers take as a message that wants no answer. -/
theorem C180_first_number (C : Cfg) (to : Name) (msg : Bytes) (s' : St) (h : sSend C to msg init = some s') :
    s'.out = [⟨C.bmc, to, C.svc, 0, msg⟩] := (C180_evm_sends C to msg init s' h).2.1

/-- The numbers of messages sent one after the other (those refused change nothing): `n` sends taken give the numbers from `k` on, without a gap. -/
def sends (f : Name → Bytes → St → Option St) : List (Name × Bytes) → St → St
  | [], s => s
  | (to, m) :: l, s => sends f l ((f to m s).getD s)

theorem sends_numbers (f : Name → Bytes → St → Option St) (d : Int)
    (hf : ∀ to m s s', f to m s = some s' → s'.sn = s.sn + 1 ∧ ∃ c, s'.out = s.out ++ [c] ∧ c.sn = s.sn + d) :
    ∀ (l : List (Name × Bytes)) (s : St), ∃ n : Nat, (sends f l s).sn = s.sn + n ∧
      ((sends f l s).out.map Call.sn) = s.out.map Call.sn ++ (List.range n).map (fun i : Nat => s.sn + d + (i : Int))
  | [], s => ⟨0, by simp [sends]⟩
  | (to, m) :: l, s => by
    rw [sends]
    cases h : f to m s with
    | none => exact sends_numbers f d hf l s
    | some s' =>
      obtain ⟨h1, c, h2, h3⟩ := hf to m s s' h
      obtain ⟨n, hn, ho⟩ := sends_numbers f d hf l s'
      refine ⟨n + 1, ?_, ?_⟩
      · simp only [Option.getD_some]; rw [hn, h1]; omega
      · simp only [Option.getD_some]
        rw [ho, h2, h1, List.range_succ_eq_map, List.map_append, List.map_cons, List.map_cons, List.map_map, h3]
        simp only [List.map_nil, List.append_assoc, List.singleton_append]
        congr 2
        · simp
        · apply List.map_congr_left
          intro i _
          simp only [Function.comp, Nat.succ_eq_add_one, Int.natCast_add]
          omega

/-- Messages are numbered without gap or repetition: from 1 on ICON, from 0 on the EVM. -/
theorem C180_numbers (C : Cfg) (l : List (Name × Bytes)) :
    (∃ n : Nat, (sends (jSend C) l init).out.map Call.sn = (List.range n).map fun i : Nat => (1 : Int) + i) ∧
      ∃ n : Nat, (sends (sSend C) l init).out.map Call.sn = (List.range n).map fun i : Nat => (i : Int) := by
  constructor
  · obtain ⟨n, _, h⟩ := sends_numbers (jSend C) 1 (fun to m s s' h => ⟨(C180_icon_swapped C to m s s' h).1, _, (C180_icon_swapped C to m s s' h).2.2, rfl⟩) l init
    exact ⟨n, h.trans (by simp [init])⟩
  · obtain ⟨n, _, h⟩ := sends_numbers (sSend C) 0 (fun to m s s' h => ⟨(C180_evm_sends C to m s s' h).1, _, (C180_evm_sends C to m s s' h).2.1, by simp⟩) l init
    exact ⟨n, h.trans (by simp [init])⟩

/-- On the EVM everything that comes in, from anybody, is answered: a message by "Success", an error by "Failure". -/
theorem C180_evm_answers (C : Cfg) (from_ svc : Name) (sn code : Int) (msg : Bytes) (text : Name) (s s' : St) :
    (sMessage C from_ svc sn msg s = some s' → s' = { s with out := s.out ++ [⟨C.bmc, from_, svc, sn, success⟩] }) ∧
      (sError C from_ svc sn code text s = some s' → s' = { s with out := s.out ++ [⟨C.bmc, from_, svc, sn, failure⟩] }) := by
  constructor <;> intro h
  · unfold sMessage post at h
    split at h
    · cases h; rfl
    · cases h
  · unfold sError post at h
    split at h
    · cases h; rfl
    · cases h

/-! ### Two services on the EVM that answer each other -/

/-- Two services at networks `a` and `b` whose centers take and deliver everything; `at_`: the side the message on the way is for. -/
structure Pair where
  a : St
  b : St
  way : Option (Bool × Call)

/-- The message on the way is delivered: the service is told the other network as the source, and what it sends is on the way. -/
def deliver (A B : Cfg) (na nb : Name) (p : Pair) : Pair :=
  match p.way with
  | none => p
  | some (true, c) =>
    match sMessage B na c.svc c.sn c.msg p.b with
    | none => { p with way := none }
    | some b => { p with b := b, way := b.out.getLast?.map fun c => (false, c) }
  | some (false, c) =>
    match sMessage A nb c.svc c.sn c.msg p.a with
    | none => { p with way := none }
    | some a => { p with a := a, way := a.out.getLast?.map fun c => (true, c) }

def delivers (A B : Cfg) (na nb : Name) : Nat → Pair → Pair
  | 0, p => p
  | n + 1, p => delivers A B na nb n (deliver A B na nb p)

/-- One message is answered for ever: after any number of deliveries there is a message on the way, and every delivery has made one more. -/
theorem C180_for_ever (A B : Cfg) (na nb : Name) (hA : ∀ c, A.takes c = true) (hB : ∀ c, B.takes c = true) (n : Nat) (p : Pair) (hp : p.way.isSome = true) :
    (delivers A B na nb n p).way.isSome = true ∧
      (delivers A B na nb n p).a.out.length + (delivers A B na nb n p).b.out.length = p.a.out.length + p.b.out.length + n := by
  induction n generalizing p with
  | zero => exact ⟨hp, rfl⟩
  | succ n ih =>
    have key : (deliver A B na nb p).way.isSome = true ∧
        (deliver A B na nb p).a.out.length + (deliver A B na nb p).b.out.length = p.a.out.length + p.b.out.length + 1 := by
      obtain ⟨a, b, way⟩ := p
      cases way with
      | none => cases hp
      | some x =>
        obtain ⟨side, c⟩ := x
        cases side with
        | true =>
          simp only [deliver, sMessage, post, hB, if_true]
          simp
          omega
        | false =>
          simp only [deliver, sMessage, post, hA, if_true]
          simp
          omega
    obtain ⟨h1, h2⟩ := ih _ key.1
    exact ⟨h1, by rw [delivers, h2, key.2]; omega⟩

/-! ### The method called does not exist -/

/-- The methods of solidity/bmc/contracts/BMCPeriphery.sol that can be called (40-460); it has no fallback, only `receive` (428). -/
def methods : List (List Char) := ["initialize(string,address,address)".toList, "getBtpAddress()".toList, "getNetworkAddress()".toList,
  "handleRelayMessage(string,bytes)".toList, "sendMessage(string,string,int256,bytes)".toList, "getNetworkSn()".toList, "getFee(string,bool)".toList,
  "getStatus(string)".toList, "sendInternal(string,bytes)".toList,
  "dropMessage(string,uint256,(string,string,string,int256,bytes,int256,(string,uint256[])))".toList, "clearSeq(string)".toList,
  "getReward(string,address)".toList, "emitClaimRewardResult(address,string,int256,uint256)".toList, "claimReward(string,string)".toList]

/-- solidity/debug-bsh/contracts/interfaces/IBtpMessageCenter.sol: the method the debug service calls has an unsigned number. -/
def called : List Char := "sendMessage(string,string,uint256,bytes)".toList

/-- A contract runs a call only if it has a method with its selector. -/
def dispatches (ms : List (List Char)) (sig : List Char) : Bool := ms.any fun m => decide (Keccak.selector m = Keccak.selector sig)

theorem sel0 : Keccak.selector "initialize(string,address,address)".toList = 0x463fd1af := by decide +kernel
theorem sel1 : Keccak.selector "getBtpAddress()".toList = 0x4f63a21d := by decide +kernel
theorem sel2 : Keccak.selector "getNetworkAddress()".toList = 0x6bf459cb := by decide +kernel
theorem sel3 : Keccak.selector "handleRelayMessage(string,bytes)".toList = 0x21b1e9bb := by decide +kernel
theorem sel4 : Keccak.selector "sendMessage(string,string,int256,bytes)".toList = 0x522a901e := by decide +kernel
theorem sel5 : Keccak.selector "getNetworkSn()".toList = 0x676286ba := by decide +kernel
theorem sel6 : Keccak.selector "getFee(string,bool)".toList = 0x7d4c4f4a := by decide +kernel
theorem sel7 : Keccak.selector "getStatus(string)".toList = 0x22b05ed2 := by decide +kernel
theorem sel8 : Keccak.selector "sendInternal(string,bytes)".toList = 0xdf9ccb10 := by decide +kernel
theorem sel9 : Keccak.selector "dropMessage(string,uint256,(string,string,string,int256,bytes,int256,(string,uint256[])))".toList = 0x39ff9dc1 := by decide +kernel
theorem sel10 : Keccak.selector "clearSeq(string)".toList = 0x019d2420 := by decide +kernel
theorem sel11 : Keccak.selector "getReward(string,address)".toList = 0x64cd3750 := by decide +kernel
theorem sel12 : Keccak.selector "emitClaimRewardResult(address,string,int256,uint256)".toList = 0x947dfac2 := by decide +kernel
theorem sel13 : Keccak.selector "claimReward(string,string)".toList = 0xcb7477b5 := by decide +kernel
theorem sel14 : Keccak.selector "sendMessage(string,string,uint256,bytes)".toList = 0xbf6c1d9a := by decide +kernel

/-- The debug service calls a method the message center on the EVM does not have: its selector is none of the center's. -/
theorem C180_no_method : dispatches methods called = false ∧ dispatches methods "sendMessage(string,string,int256,bytes)".toList = true := by
  unfold dispatches methods called
  simp only [List.any_cons, List.any_nil, sel0, sel1, sel2, sel3, sel4, sel5, sel6, sel7, sel8, sel9, sel10, sel11, sel12, sel13, sel14]
  decide

/-- So with that center nothing the debug service does on the EVM succeeds. -/
theorem C180_evm_never (C : Cfg) (hc : ∀ c, C.takes c = true → dispatches methods called = true) (to svc : Name) (sn code : Int) (msg : Bytes) (text : Name)
    (bmc : Nat) (s : St) : sSend C to msg s = none ∧ sRaw C bmc to svc sn msg s = none ∧ sMessage C to svc sn msg s = none ∧ sError C to svc sn code text s = none := by
  have h : ∀ c, C.takes c = false := by
    intro c
    cases h : C.takes c with
    | false => rfl
    | true => have := hc c h; rw [C180_no_method.1] at this; cases this
  simp [sSend, sRaw, sMessage, sError, post, h]

/-! ### A case -/

/-- A center that takes calls for the service "d" only. -/
def demo : Cfg := ⟨1, ['d'], fun c => decide (c.svc = ['d'])⟩

example : jSend demo ['n'] [1] init = none ∧ jRaw demo 1 ['d'] ['n'] 1 [1] init = some ⟨0, [⟨1, ['n'], ['d'], 1, [1]⟩], []⟩ ∧
    sSend demo ['n'] [1] init = some ⟨1, [⟨1, ['n'], ['d'], 0, [1]⟩], [.sent 1 ['n'] ['d'] 0 [1]]⟩ ∧
    (sends (sSend demo) [(['n'], [1]), (['m'], [])] init).out.map Call.sn = [0, 1] := by decide +kernel

end Verif.DebugBsh
