# Design

Subject: icon-project/btp (Go relay, Java and Solidity contracts) as found in /repo.
Technique: hand-written executable models in Lean 4 and machine-checked theorems about them.
Nothing in /repo is built or run; each model definition cites the file and lines it models and states its simplifications.

## Layout

* `lean/Verif/<Area>.lean` — model definitions (and, where short, helper lemmas).
* `lean/Verif/<Area>Lemmas.lean`, `<Area>Inv.lean`, … — helper lemmas and invariants.
* `lean/Verif/<Area>Props.lean` (and `…Auth`, `…Sound`, `…Seq`, `…Tab`, `…Sys`, `…Ledger`) — the property theorems, stated against
  small independent specifications, with `example`s showing that the hypotheses are met by concrete non-trivial cases.
* `MANIFEST.json` — property -> theorem names and status.
* `seeded/LOG.jsonl` — wrong-program experiments.

## Conventions

* Byte strings are `List UInt8` or `List Nat` with an explicit `< 256` bound; Go `int`s are `Int`/`Nat` unless
  the property is about width, in which case wrap-around is modelled explicitly.
* Panics, nil dereferences, reverts and errors are explicit outcomes.
* Loops are structural recursion or recursion with fuel; where fuel is used a theorem says how much is enough, or the statement
  holds for every amount.
* Contracts are state machines: one function per external call, from state and arguments to a new state and events or to a revert,
  which leaves the state as it was. Histories are lists of calls; invariants are proved by induction over them.
* Hashes, signature recovery, ciphers and key derivation are arbitrary function parameters. Soundness statements conclude "equal, or
  here is a collision". What is needed of a library (e.g. that decryption inverts encryption) is a hypothesis of the theorem.
* Go map iteration order is a parameter.
* A property that is false of the code has a theorem proving the negation with a concrete witness and theorems (suffix `_partial`)
  for the part that does hold, with "if and only if" where possible.

## Properties, modules and results

One line per property: the modules of its theorems, its status, and what is missing or false. The statements are in `properties.jsonl`, the theorem names in `MANIFEST.json`.

* **C01 int64 byte codec round trip and minimality** — `IntConv`; proved.
* **C02 uint64 byte codec round trip and minimality** — `IntConv`; proved.
* **C03 size codec round trip** — `IntConv`; proved.
* **C04 big integer byte codec is a bijection onto minimal strings** — `IntConv`; proved.
* **C05 text form of integers round trips** — `IntText`; proved. strconv and encoding/hex are modelled from their documented behaviour
* **C06 RLP codec round trip** — `Rlp`; proved. interface{} values and msgpack are not modelled; maps and custom RLPEncodeSelf methods are in C154
* **C07 RLP encodings are self-delimiting** — `Rlp`; proved.
* **C08 truncated RLP input is rejected** — `Rlp`; partial. false for lists (negation proved); proved for scalars, and lists of scalars truncate to a shorter beginning or an error
* **C09 RLP decoding accepts one encoding per value** — `Rlp`; partial. false (negation proved); for strings canonical header is equivalent to being the encoder output
* **C10 RLP decoding never panics** — `Rlp`; partial. false (negation proved): a nine byte input makes the decoder panic; no other cause of panics exists
* **C11 incremental and bulk Merkle tree agree** — `Mbt`; partial. The bulk constructor gives the specified Merkle root for every list. The full statement (Add one by one gives the same root) is false: C11_add_deviates is a witness with 8 contents. C11_add_commits_partial shows what Add does guarantee: the tree commits to all contents in order.
* **C12 single-leaf path proof** — `Mbt`; proved.
* **C13 range proof completeness** — `Mbt`; proved.
* **C14 range proof soundness** — `Mbt`; partial. Sound when the leaf counts are positive and do not overflow. Without that the statement is false: C14_negative_count_forgery builds an accepted proof with a false offset from any 16 messages, C14_zero_count_forgery one with a foreign message.
* **C15 the on-chain proof verifiers agree with the relay** — `Mbt`, `SolProof`; proved. Message lists shorter than 2^31 (Java int) and 2^63 (Solidity, limit of the relay).
* **C16 Merkle accumulator structure** — `Mta`; proved. For every history of additions, queries, partially failing flushes and crashes with recovery in which no two different node values are written under one hash key.
* **C17 accumulator witness round trip** — `Mta`; proved. For every history of additions, queries, partially failing flushes and crashes with recovery in which no two different node values are written under one hash key.
* **C18 accumulator witness soundness** — `Mta`; partial. For every history of additions, queries, partially failing flushes and crashes with recovery in which no two different node values are written under one hash key. Sound for 32-byte hashes; false for longer ones: Verify ignores everything after the 32nd byte of the hash (C18_long_hash_accepted).
* **C19 witness for an older accumulator length** — `Mta`; proved. For every history of additions, queries, partially failing flushes and crashes with recovery in which no two different node values are written under one hash key.
* **C20 verification of witnesses from another accumulator length** — `Mta`; partial. For every history of additions, queries, partially failing flushes and crashes with recovery in which no two different node values are written under one hash key. True for an accumulator newer than the witness. False for an older one: C20_older_iff_partial gives the exact condition, C20_older_refused and C20_older_panics concrete cases for every hash function.
* **C21 witness wire form round trip** — `Mta`; proved. For every history of additions, queries, partially failing flushes and crashes with recovery in which no two different node values are written under one hash key.
* **C22 accumulator persistence is crash safe** — `Mta`; proved. For every history of additions, queries, partially failing flushes and crashes with recovery in which no two different node values are written under one hash key. The record format (JSON) is a parameter with dec (enc s) = s; the state key is not 32 bytes long; a single database write is atomic.
* **C23 extended accumulator maps heights by its offset** — `Mta`; partial. For every history of additions, queries, partially failing flushes and crashes with recovery in which no two different node values are written under one hash key. Heights at or below the offset are not rejected: the witness of the first leaf is returned (C23_low_height). Recover with another offset reports an error but replaces the roots (C23_recover).
* **C24 fragmented relay messages are reassembled exactly** — `Fragment`; proved. Also for arbitrary interleavings of accepted and refused calls (C24_history). Integer texts and base64 are taken as faithful.
* **C25 signed transaction text determines the transaction** — `Serialize`; partial. False of the code: an empty string at the front of a list leaves no trace and a number is signed as its decimal text (C25_not_injective). Proved: injective for content without numbers in which no list begins with an empty string. Map iteration order: entries are given in sorted key order.
* **C26 BTP address composition and parsing** — `BtpAddress`; partial. All parts are returned and the three parsers agree on btp addresses whose account has no '/'. The relay's validation accepts only icon and iconee, the account may hide a '/' from the relay, and Java accepts other protocols (C26_fails).
* **C27 address text and byte forms round trip** — `Address`; partial. Round trips hold for every address and earlier content. Independence of the earlier content fails for ids shorter than 20 bytes (C27_stale_bytes).
* **C28 layered database is a transparent overlay** — `LayerDb`; partial. Every history is that of one map, on backends that accept every key and give every (bucket, key) its own slot. False: over the map database a staged empty key makes Flush fail half way; over goleveldb ids that are prefixes of one another share slots.
* **C29 database buckets are isolated** — `LayerDb`; partial. Exact: two buckets of goleveldb share a slot iff one id extends the other and the keys differ by that suffix. The empty id MerkleTrie shares slots with all others; hash-length keys are safe.
* **C30 the relay loop survives any number of relay results** — `Link`; partial. False: no call of the result handler ever returns (deferred Lock instead of Unlock). What holds: nothing else touches the lock.
* **C31 relay queue bookkeeping** — `Link`; partial. False: the finished message stays and all in front of it are discarded. What holds: nothing is reordered or invented.
* **C32 bridge receiver delivers every message once** — `Receiver`; partial. False for every block with two or more messages; holds for one message.
* **C33 btp2 receiver proof parts tile the block** — `Receiver`; partial. False for every part after the first: the reported number is too high by the offset. Holds for a proof from the first message.
* **C34 EVM bridge receiver handles any number of messages per block** — `Receiver`; partial. False for blocks with two or more events (nil dereference); holds for one event.
* **C35 revert codes survive wrapping** — `Errors`, `Sender`; partial. Codes: proved. The class in the relay's message is wrong exactly for 10, 25, 40 and 55; the type the Java code looks up from a code is wrong for every code below 40. The names of the message center codes 9-12 differ from the contracts (C35_bmc_names_witness).
* **C36 signature serialisation round trip** — `Wallet`; partial. RSV and RS: proved. ParseSignatureVRS crashes on every 65-byte input.
* **C37 keystore encryption round trip** — `Wallet`; partial. Round trip, wrong password and address: proved. A key store with an iv of the wrong length crashes instead of an error; the iv is not under the MAC.
* **C38 transaction send loop** — `Sender`; partial. Re-sending, re-signing, duplicates and termination: exact. False: a duplicate is reported as success with an empty hash, so its result is never found; short system errors crash. Success with a hash implies acceptance.
* **C39 relay verifier returns the new messages in order (Java bridge)** — `BmvBridge`; partial. The messages collected are exactly the events that continue the sequence, in order; but the array returned is sized and filled wrongly (C39_array_wrong), so the property is false of the code as it stands.
* **C40 relay verifier returns the new messages in order (Solidity bridge)** — `BmvBridge`; partial. Soundness, completeness for well-formed relay messages, and no event left behind. An event for another BMC with a number beyond the expected one blocks the relay message (C40_foreign_event_blocks).
* **C41 exactly-once in-order delivery per link** — `SolBmc`, `JavaBmc`; partial. Solidity BMC: any history with nested service calls, provided no service re-enters the BMC for the link it is called from; false without (C41_reentrance_witness). ICON BMC: exactly once for every history with arbitrary re-entrance; in order if called contracts make no relay call; out of order otherwise (C41_java_reentrance_witness).
* **C42 outgoing messages are numbered consecutively** — `SolBmc`, `JavaBmc`; proved. Both BMCs, any history with arbitrarily nested service calls.
* **C43 only registered relays deliver** — `SolRoutes`, `JavaBmc`; partial. Solidity BMC: proved for all histories. ICON BMC: delivery needs a registered relay; false for removal: removeLink leaves the first half of the relays (C43_java_half_stays, witness); true with at most one relay.
* **C44 fees are conserved** — `SolBmc`, `JavaBmc`; partial. Exact ledger per currency over any history for both BMCs. Not conserved: value sent with a claim of the own currency (both); ICON: fee of a failed one-way message collected twice, fee of a dropped one-way message lost (witnesses).
* **C45 claimed rewards are never paid twice** — `SolBmc`, `JavaBmc`; partial. Solidity: each side exact, false over several networks because the response's source is not checked. ICON: origin exact; destination credits even if the response fails and an error goes back (C45_java_always_credited, witness): paid twice.
* **C46 enumerable dictionary is a map** — `EnumDict`; proved. Refinement to a function map, all operation sequences including clear; keys compared by value.
* **C47 route resolution order (Java)** — `JavaBmc`; proved. ICON BMC, every history with nested calls.
* **C48 link and route tables stay consistent (Solidity)** — `SolRoutes`; partial. False in general (five witnesses). The partial theorems hold for all histories in which a link is only added for a network without a route, no manual route is added over a direct link, each link reports each network at most once and never a directly linked one, and withdraws only what it reported.
* **C49 block verification never skips or repeats messages (Java btpblock)** — `JavaBtpBlock`; partial. Proved for histories whose accepted proofs have positive leaf counts that fit an int, offset 0 and a first block starting at message 0. False for proofs with a leaf count of 0: forgery for every state waiting for one message.
* **C50 block verification never skips or repeats messages (Solidity btpblock)** — `SolBtpBlock`; partial. Numbers proved in full. In-order delivery proved for histories whose accepted proofs have positive leaf counts and start where the last one ended. False in general: the position of a proof is not checked, so for every block the first messages can be delivered twice instead of later ones; a leaf count of 0 lets a forged message through.
* **C51 network section path** — `JavaBtpBlock`, `SolBtpBlock`; partial. EVM verifier: full, every depth. ICON verifier: right for at most two networks; for every longer path the root is wrong (each step restarts from the leaf).
* **C52 validator quorum** — `JavaBtpBlock`, `SolBtpBlock`; partial. ICON verifier: full. EVM verifier: full for validator lists without duplicates; a validator named more than once is counted more than once, for every list of copies.
* **C53 cross-chain call executed at most once** — `XCall`; proved. Both languages, with contracts that call back.
* **C54 rollback only after failure, at most once** — `XCall`; proved. Both languages, with contracts that call back.
* **C55 responses only from the called network** — `XCall`; partial. False: for every pending call a response from any network settles it (success as well as failure, after which the rollback runs). Holds if the services of all connected networks are honest.
* **C56 contract ownership is never lost** — `SolRoutes`, `JavaOwners`; proved. Both contracts. On ICON an account the platform makes contract owner may be listed twice by getOwners (witness); membership is still exact.
* **C57 Merkle Patricia proof object is hash linked** — `MptProof`; partial. False: nothing links what follows a leaf, and a list that does not end with a leaf crashes. Chain proved for lists with one leaf, at the end.
* **C58 IconOptions header round trip** — `IconOptions`; partial. Exact: the options survive iff no key is empty or holds a comma or an equals sign and no value holds a comma. Nothing is escaped or refused.
* **C59 Solidity RLP is compatible with the relay's RLP** — `SolRlp`; partial. Proved for all structures whose strings are not the single byte 0x80 and whose numbers are not -128 and below 2^127 / 2^128-1; the relay form also needs list lengths that are not 256^k-1. False otherwise: witnesses for a payload [0x80] (arrives empty), nsn -128 (undecodable) and payload length 255 (non-canonical header).
* **C60 block monitor catch-up delivers each height once** — `Monitor`; partial. Proved over polling. Over a subscription exact: holds iff the start is not beyond the first head and each head follows the last; heads that skip or repeat are passed on as they come.
* **C61 fixed-width text parsing never returns a value outside the width** — `IntText`; proved.
* **C62 a number's text means the same for every integer type** — `IntText`; partial. False in general ("10" is 10 or 16): negation proved; agreement proved for text with the 0x prefix
* **C63 nil is never confused with an empty value** — `Rlp`; proved.
* **C64 accepted texts of arbitrary-precision integers** — `IntText`; proved.
* **C65 soundness of the ICON contract's message proof check** — `Mbt`; partial. Sound when the leaf counts are positive and do not overflow; false otherwise (forgeries).
* **C66 soundness of the EVM contract's message proof check** — `SolProof`; partial. Sound when the leaf counts are positive; with a zero count a foreign message is accepted (forgery).
* **C67 accumulator node lookup** — `Mta`; proved. For every history of additions, queries, partially failing flushes and crashes with recovery in which no two different node values are written under one hash key.
* **C68 soundness of VerifyWithAccLength** — `Mta`; proved. For every history of additions, queries, partially failing flushes and crashes with recovery in which no two different node values are written under one hash key.
* **C69 accumulator data is persisted** — `Mta`; proved. Under the no-collision condition on the written keys (LogOk).
* **C70 service and verifier registries** — `SolRoutes`; proved. Solidity BMC, histories of calls by arbitrary senders.
* **C71 message numbers on BTP networks (ICON)** — `JavaBmc`; partial. Proved for the messages since the network was last bound; false over the whole history when a network is bound again (C71_java_rebound_witness).
* **C72 error responses carry the right code (ICON)** — `JavaBmc`; partial. False for services that revert with code 11 or 6 (witness); everything else proved.
* **C73 an honest chain can be relayed (block verifiers)** — `JavaBtpBlock`, `SolBtpBlock`; partial. EVM verifier: proved for every offset, first block and number of networks, with a place filler for absent validators; an empty signature before the quorum is refused. ICON verifier: proved for offset 0, first block at message 0, at most two networks. False otherwise: with an offset no honest next block is accepted, after a first block starting later nothing is accepted; a second proof in the call of the update is refused.
* **C74 validator handover** — `JavaBtpBlock`, `SolBtpBlock`; partial. ICON verifier: full. EVM verifier: validators change only with the flag, but the new ones are not compared with the signed hash: in every accepted update with the flag they can be replaced by any list.
* **C75 a signed decision commits to the section** — `JavaBtpBlock`, `SolBtpBlock`; proved. For sections that are not 64 bytes long (a section of 64 bytes can pass for a tree node); EVM side for network names shorter than 2^32 bytes other than the single byte 0x80.
* **C76 cross-chain calls are atomic** — `XCall`; proved. Message centers as in C43, C44, C50: each message delivered at most once or given back, not both; network names without slash; fewer than 2^255 calls per service.
* **C77 the call service keeps no coins but fees** — `XCall`; proved.
* **C78 access control of the call service** — `XCall`; proved.
* **C79 calls and rollbacks can be executed** — `XCall`; proved. Given that the message center takes the response; requests with proper sender address and number below 2^255.
* **C80 no item is lost between receiver and sender** — `Link`; proved. Interleaving at whole method calls.
* **C81 several blocks or several parts may be pending** — `Link`, `Receiver`; partial. False: two pending updates, or a block in parts, crash the relay. One pending block that fits is C84.
* **C82 relay messages keep within the size limit** — `Link`, `Receiver`; partial. Holds for receivers that keep to the limit they are given and a margin that does not lower the limit; the btp2 receiver exceeds it whenever it cuts a block.
* **C83 the link does not wait for ever** — `Link`, `Receiver`; partial. False: conditions under which each loop runs for ever, for every fuel.
* **C84 the btp2 relay delivers every message once, in order** — `Receiver`; partial. Proved for blocks that come one at a time and fit into one message; otherwise false (C81).
* **C85 a failed status query does not stop the relay** — `Sender`; partial. False: a nil status is sent and dereferenced.
* **C86 failed relay transactions are reported to the link** — `Sender`; partial. Reverts with code (ICON: failure 32..99; EVM: "<number>:<text>") are reported exactly; other failures are silent.
* **C87 public keys parse to one form** — `Wallet`; partial. Both forms agree; only the length is checked.
* **C88 encrypted messages are readable by the recipient** — `Wallet`; partial. Proved for ICON wallets and compressed keys. With an uncompressed recipient key the message is unreadable; between EVM wallets the key depends on no secret.
* **C89 key stores of the relay are protected by the configured password** — `Wallet`; partial. False for the source side: an unreadable secret file means the empty password.
* **C90 the receivers notice every message** — `Monitor`; partial. Proved if every request succeeds. False otherwise: a failed fetch is logged and the block left out; for btp2 all later numbers are then wrong.
* **C91 a failure ends the relay or is retried** — `Monitor`; partial. False: after the first status query no failure ends a link. Exact characterisation of what would.
* **C92 a restarted relay goes on where the destination stands** — `Monitor`; partial. False for btp2 inside a block: the link is stuck. Proved at block boundaries and for the bridge.
* **C93 the verifier contract's accumulator accepts only blocks it has added** — `JavaMta`; partial. The hash was added (or two given lists collide). False for the height: a hash is also accepted at other heights; the position is bound for witnesses of full length. Witnesses for older accumulators need a setting no contract makes.
* **C94 the verifier contract's trie proofs are sound** — `JavaMpt`; partial. Proved for tries whose keys are prefix free (as RLP indices are). False in general: a key is proved by a longer one and by an empty branch value; nodes embedded in their parent end in an exception.
* **C95 the ICON verifier contract accepts only a chain signed by two thirds** — `JavaIconBmv`; proved. The hash is a parameter: a fork without double signing gives a collision of two given lists. The headers, validators and signatures of the chain are those shown in the calls.
* **C96 the ICON verifier contract returns exactly the proved messages** — `JavaIconBmv`; partial. False for two or more messages in a call: all are written to the first place of the array, the others stay null. The messages collected are exact; one message is returned as it is. The headers, validators and signatures of the chain are those shown in the calls.
* **C97 the coin service's ledger matches what it holds** — `Ncs`; proved. From a fresh deployment; the token contract is modelled with it, ids of coins are taken as injective.
* **C98 coins sent to the other chain stay backed** — `Ncs`; proved. Two chains, message centers that deliver each packet once (C41) in any order and answer a failed request by an error; requests may also fail on the way, where an error goes back. Answers that fail on the way: see C174.
* **C99 a transfer is delivered in full or refunded in full** — `Ncs`; partial. False if a request names the native coin of the other chain twice: only the last amount is paid (witness). Proved if no request names a coin twice, and for all other coins. Requests may fail on the way; answers that fail on the way: see C174.
* **C100 a transfer is answered only by the network it was sent to** — `Ncs`; partial. False: the network of an answer is not looked at (witness). Only the message center can answer.
* **C101 every answer ends its transfer, fees can be collected** — `Ncs`; partial. False for replies of unknown type, which leave the coins locked, and for fees: no call takes them out.
* **C102 the token service's ledger matches the tokens it holds** — `TokenBsh`; partial. False: setBalance may be called by anyone, and transfers of negative amounts are accepted; each lets a stranger take the deposits of others (witnesses). The equation holds without outside calls of setBalance; the bounds if in addition amounts are positive and fees at most the whole; the equation for locked amounts also needs that no BTP errors come.
* **C103 every token transfer is settled or given back in full** — `TokenBsh`; partial. Answers do it exactly. False for BTP errors: refused if the receiver is not an address of this chain, and the fee stays locked otherwise. The network an answer comes from is not looked at.
* **C104 gathered fees are sent once or booked again** — `TokenBsh`; partial. Holds for answers to the number of the request sent. False for BTP errors (always refused), for answers to the other numbers kept (fees booked twice), and for the receiver, which pays the first asset alone.
* **C105 deposited tokens can be taken back** — `TokenBsh`; partial. False: proved that no call but a request from another network takes tokens out.
* **C106 only owners change owners and tokens; the count is right** — `TokenBsh`; partial. False for the count of owners and for removing the deployer, who stays an owner.
* **C107 tokens promised to buyers of fees are held** — `FeeAgg`; partial. False: empty deposits list a depositor several times, and a token registered under two names is sold twice (witnesses). Proved for histories where each asset has one name and deposits are not empty.
* **C108 coins due to depositors are held** — `FeeAgg`; partial. False in every history with a refund: all deposits go to the fund, so refunds are paid from the deposits of other auctions or not at all.
* **C109 tokens are shared by deposits at the discounted price** — `FeeAgg`; partial. The amounts of a single share hold for all values; that each depositor is credited once needs deposits that are not empty.
* **C110 an auction that is over can be ended** — `FeeAgg`; partial. False: no call ends an auction until new tokens come in or an earlier buyer claims, and an auction with an empty deposit alone may divide by zero.
* **C111 a deposit counts in exactly one auction** — `FeeAgg`; partial. The end overflows for long durations, and negative durations are accepted (witnesses).
* **C112 a stored dictionary is a map** — `PyDb`; partial. False: a key is not removed by the instance that added it, and a single key of one character is lost for the next instance (both for all values). Proved for all histories without these two.
* **C113 removing all entries empties a stored dictionary** — `PyDb`; partial. False: the list changes while it is walked through, so every second key stays; an instance that added the keys removes none. Proved for dictionaries of at most one key.
* **C114 stored properties are read back** — `PyDb`; proved.
* **C115 the Python RLP codec is that of the relay** — `PyRlp`; partial. False for values of 65536 bytes and more (the bytes of the length are inserted in a wrong order; proved unreadable for lengths of three bytes). Proved for shorter ones.
* **C116 the Python base64 functions** — `PyBase64`; partial. Reading back is proved for all byte strings. False: several texts stand for the same bytes.
* **C117 the Python contracts parse BTP addresses as the other ones do** — `PyAddr`; partial. False for accounts with a slash, which are cut at it. Proved for all others.
* **C118 the Python accumulator of block hashes** — `PyMta`; partial. The stated height is bound only modulo the size of the tree of the witness (proved: any height is accepted with an empty witness for the newest of an odd number of blocks). The rest is proved.
* **C119 the Python trie proofs** — `PyMpt`; partial. False: a leaf whose path is longer than the key is accepted, extensions embedded in a branch are refused and the value of a branch is returned encoded. Proved for lists under prefix-free (RLP) keys and for tries without values in branches and without embedded extensions.
* **C120 the Python verifier follows one chain of signed blocks** — `PyBmv`; partial. Safety is proved for all histories on the bytes. Acceptance of the next block from its bytes is proved for messages below 65536 bytes (see C115). The headers, validators and signatures of the chain are those shown in the calls.
* **C121 the Python verifier returns exactly the proved messages** — `PyBmv`; partial. The link from the proved node lists to the tries of the block assumes RLP keys and a bound on sizes (C119). A proved message for another chain with another number makes the call fail. The headers, validators and signatures of the chain are those shown in the calls.
* **C122 numbering and delivery in the Python message center** — `PyBmc`; partial. Sending is proved for all histories. Taking is false if a service relays again for the same link while one of its messages is handled (proved with a witness: handled twice and the next one lost); proved for all histories without such calls. Genuine content needs verifiers that return only what was sent (C121).
* **C123 permissions of the Python message center** — `PyBmc`; partial. False in part: nothing is checked while access control is off, the permissions of the origin count when the sender has none, an account whose last permission was removed can never get one again, relayers and relays are not guarded. Each proved; the rest proved for all states.
* **C124 links, verifiers and routes of the Python message center fit together** — `PyBmc`; partial. The verifier part is proved for all histories. False: two links to one network, routes over links that do not exist, relays that survive the removal of their link (witnesses proved).
* **C125 rotation of relays in the Python message center** — `PyBmc`; partial. Proved: only a relay of the link relays, the index stays in range, the turn advances with the height and everyone gets a turn. False: removeRelay always fails, and anyone can become a relay of a link without terms (proved).
* **C126 no message blocks a link of the Python message center** — `PyBmc`; partial. False: messages with unreadable events, unknown events, unreadable acknowledgements, null numbers or destinations and unreadable errors make every relay call with them fail, so the number never passes them; whoever may call sendMessage at the other end can send one. All other messages are handled if the search for a route meets only addresses (C126_handled_partial).
* **C127 routing and errors of the Python message center** — `PyBmc`; partial. Forwarding, answers and direct links are proved. False: sendMessage writes the next hop as destination, events are taken from any network for any link, a text that is no address in an event makes the search fail, an error that cannot be passed on comes back as a request (each proved).
* **C128 balances of the Python token service** — `PyToken`; partial. Ledger and locked balance are proved for all histories. The usable balance can become negative by a received request with a negative value (witness C128_negative); proved non-negative when no such request is received.
* **C129 transfers of the Python token service** — `PyToken`; partial. Numbers and single ends are proved. False: an answer is taken from any network; an error for an answer the service gave is taken for its own transfer with the same number; a code false is compared as an object and gives the value back (witnesses).
* **C130 token registry of the Python token service** — `PyToken`; partial. Proved except: unregistering stops deposits only (transfers, reclaims and received transfers of the token go on), a name can never be registered again, and one contract may have two names (each proved).
* **C131 messages to the Python token service** — `PyToken`; partial. Proved: readable requests are credited and answered 0, or answered -1; only the message center is listened to. False: texts that are no JSON, no type, or requests with a missing or unreadable field raise and so block the link (C131_blocks, composed with the message center); messages of unknown type are answered with such messages for ever; a request given twice is credited twice.
* **C132 token services of two networks** — `PyToken`; proved. For two services of this code and a network that delivers each packet once and unchanged. A packet a service cannot read is not delivered (C131_blocks). A third network or another program behind the message center is not covered: see C128, C129, C131 for what it can do.
* **C133 relay messages from bytes in the EVM verifier** — `SolRelay`; partial. Round trip, sizes, refinement and relaying of honest chains are proved for all bytes and memory contents. The order theorem keeps the conditions of C50 (accepted proofs are placed, last section on the chain). A message cut off inside an item is not always refused: what it means depends on memory behind it (C133_memory_witness).
* **C134 accepted texts of fixed-width integers** — `IntText`; proved. Complete characterisation. The witness shows what the rule means: 010 is eight, 019 is twenty-five.
* **C135 messages from ICON to an EVM chain, end to end** — `EndToEnd`; partial. Under the limits of C50 (proofs placed as the relay places them, the last section of the verifier is one of the chain) and without services that re-enter the message center for the link while it handles a message of it. Or a hash collision or a preimage of zero shows. That the chain of blocks carries the messages given to the BTP network is what ICON itself does, outside of this repository, and is a hypothesis.
* **C136 EVM address texts** — `SolText`; proved. isChecksumValid is used nowhere; that it never holds is what the code does.
* **C137 Solidity string functions** — `SolText`; partial. False of the code in part: split loses a last part of one character and, after two delimiters at the end, the last part; C137_split says exactly what it gives. splitBTPAddress ignores the scheme (C137_btp_sound). compareTo: or a hash collision.
* **C138 Solidity number texts, and errors that carry them** — `SolText`, `XCall`; partial. False of the code in part: parseInt reverts for every text; toString reverts from 10^32 on, so that the Solidity call service refuses errors with such codes and does not enable the rollback.
* **C139 service messages between ICON and EVM chains** — `JavaMsgs`; partial. From ICON to the EVM: all contents with unsigned numbers below 2^255 (refused from there on) and signed ones of 31 bytes. From the EVM to ICON: with the exceptions of C59 (negations proved there). ICON's side is written by the runtime's ObjectWriter, whose form is taken as given.
* **C140 no message blocks a link** — `SolBmc`, `EndToEnd`, `JavaBmc`; partial. Proved for ICON (readable messages) and for the EVM except for three kinds of messages: requests for an answer without a request number (fail if they are for this network and not handled), network number -128 (cannot be read), numbers beyond 2^127 to be passed on (cannot be written). For these the negation is proved: the relay call reverts, and the link does not get past them unless an owner drops the message. Neither message center sends the first kind if it receives none.
* **C141 applications get their rollback data back exactly when a call failed** — `DApp`; partial. Proved for histories in which no call delivered claims to come from the call service of this chain; it is enough that the message center never names this network as the origin (C141_other_networks), and C172 proves the condition of networks. Without it the negation is proved: the call service passes on whatever network it is given, so a message can pose as a rollback; the true rollback then fails. Also: data of successful calls is never deleted. On ICON the form of the data (runtime ObjectWriter/ObjectReader) is assumed to be readable; on the EVM this is proved.
* **C142 EVM to ICON over the bridge verifier, end to end** — `EvmToIcon`; partial. Safety is proved for messages the encoders write correctly (C59); ICON's runtime reader is a parameter assumed to read what the runtime's writer writes. The rest is false of the code: relay messages with two or more due events are refused, one relay call with a false height ends the link, and events of other links are taken for events of this link.
* **C143 ICON to ICON over the block verifier, end to end** — `IconToIcon`; partial. Proved for verifiers set up from the first header of the network with offset 0 (other set-ups are stuck: C73), with the proofs it accepts having positive leaf counts and the last section taken being one of the chain (C47, C49; signatures are C75). The runtime reader is a parameter assumed to read what the runtime writer writes. Relay calls for the link from inside a service are refused in the model (see C41).
* **C144 Giving up one message lets the next ones through** — `IconToIcon`, `DropBlock`; partial. False of links with block verifiers on both platforms: the verifier keeps its own number, which dropMessage does not raise, and refuses every relay call from then on, until the link is removed. The partial theorem is for the bridge verifier, which takes the number from the message center.
* **C145 the fund that auctions pay into keeps its books** — `PyCpf`; partial. False in three places: a lowered maximum is enforced only at the next payment; the recorded budget gets negative if the CPS treasury returns more than was sent; with a negative maximum (the owner may set one) every payment is refused, and then no auction with bids ends.
* **C146 the sample tokens keep their books** — `PyMulti`; proved.
* **C147 the events of the multi-token tell its balances** — `PyMulti`; partial. True for ids and values of batches from 0 to 2^53 - 1. False above: int_to_bytes divides with floats, so a batch transfer of one token of 18 decimals and 200 units is told as 256 units more; different values, and ids -1 and 255, have the same bytes.
* **C148 the price reference tells the last price given** — `PyCpf`; partial. False of the time: an entry with an earlier resolve time replaces a later one.
* **C149 JSON forms of numbers and bytes mean what was written** — `HexJson`; partial. False in three places: a JSON number with an exponent is misread (1e5 is 485); null and the empty string are zero, so an absent number can not be told from zero; the string "10" is sixteen for HexInt and ten for HexInt64.
* **C150 helpers of the Java contracts: tokens, names, hexadecimal text, arrays, validators at deployment** — `JavaUtil`; partial. False in three places: hexToBytes accepts any text of even length (0x11, as in the tests, is ff 11); the empty name is accepted; a verifier can be deployed with no validators or with duplicates, and then never accepts a block. toLowerCamelCase does not lower the first letter.
* **C151 memory routines of the EVM libraries copy and join byte strings and harm no other memory** — `SolMem`; partial. Proved for copying, joining and reading. False for encodeAddress: it takes the upper 20 bytes of the length from the memory behind the free memory pointer, and concat can leave bytes there (witness). No contract of the bridge calls encodeAddress; the test library does.
* **C152 the circular queue of the EVM verifier computes the root as on lists** — `SolProof`; proved.
* **C153 objects of the Java contracts are read back as written** — `JavaObj`; partial. Proved for all classes, with two conditions: BTP addresses must survive their text form (all that come from the parser do; one with "/" in the network does not), and a receipt must have a list of event logs (one without is written and cannot be read: witness). The hashed header is a re-encoding of what was read: for a block whose result has a fifth field the bytes differ (witness). The runtime's RLPn is an assumption (lossless items).
* **C154 codec: maps, custom methods, lists of objects, step by step encoding, Skip** — `RlpObj`; partial. Proved, with the exceptions shown by witnesses: custom methods are used for addressable values only, so a HexInt passed by value, in a map or in a struct passed by value is written without its number; a length of 2^63 is skipped as if it were zero; a value given to an encoder whose parent has gone on is lost. Interfaces and msgpack are not modelled.
* **C155 relay configuration: paths, save, links** — `RelayConfig`; partial. Proved, except for: save resolves names that are relative to the configuration file against the working directory (kept exactly if the two are the same directory); an empty log file or base directory becomes the working directory; no key store is ever written by save; the step limit of the side written to is ignored, that of the other side is used.
* **C156 solvency of a network of EVM message centers** — `SolNet`; proved. Under the conditions of the statement, which are needed: Demo.C156_drop_false and Demo.C156_reentrant_false make rewards without coins. With message centers of ICON in the network: C163.
* **C157 a network of EVM message centers with numbered links** — `SolNet`; proved. Conditions as for C156 (services make no relay calls while they handle a message, truthful drops, no cleared links); that verifiers release only the next messages emitted is C40, C41, C50, C135, C142.
* **C158 requests and answers in a network of EVM message centers** — `SolNet`; proved. Conditions: services make no relay calls while they handle a message (C41), owners who drop a message tell its contents truly, numbers of links are not cleared. C158_reuse_false: of two requests with one number the first is forgotten and never answered.
* **C159 calls between contracts over a network of EVM message centers** — `XNet`; proved. Conditions: services make no relay calls while they handle a message (C41), the management knows only the call service under its name, services encode so that others can read (C59, C139), less than 2^255 calls, owners who drop a message tell its contents truly, chain names have no slash. C159_answerable also needs a route back and callers with non-empty addresses.
* **C160 requests and answers in a network of EVM and ICON message centers** — `MixNet`; proved. Everything stated is proved. What is false of the code: that every request is answered or answerable. When an ICON chain refuses the error message (sendBTPMessage), the message center gives the request up and its sender never gets an answer (C160_fallen_false); C160_accounted names this case. Conditions: services make no relay calls while they handle a message (C41), owners who drop a message tell its source, service and numbers truly, numbers of EVM links are not cleared.
* **C161 calls between contracts over a network of EVM and ICON message centers** — `XMix`; proved. Everything stated is proved. What is false of the code: that every call with a rollback is answered or answerable. When an ICON chain refuses the error message (sendBTPMessage), the message center gives the request up and the caller never gets an answer (C161_lost_false); C161_accounted names this case. Conditions: services and contracts called make no relay calls while they run (C41), owners who drop a message tell its source, service and numbers truly and register no other contract as xcall, fewer than 2^255 calls per service, messages between call services are read as they were written (C59, C139); for the answers of ICON, the contract called does not use the owners' methods of the message center: an owner can take the service away in the middle of the call (C161_answerable_owner_false).
* **C162 calls between contracts over numbered links between EVM and ICON chains** — `XMix`; proved. Conditions: those of C161; verifiers release what the other chain emitted (C164 puts the verifiers in); a link of ICON is not added again after it was removed and numbers of EVM links are not cleared (the numbers start again at 0 then); an owner who drops a message names the one that is next.
* **C163 fees and rewards of a network of EVM and ICON message centers** — `MixNet`; partial. Solvency without conditions is false of the code: ICON credits a claim before answering, so a claim from a network it has no route to is credited and refunded (C163_unrouted_false); ICON collects the rest of the fee of a failed message that wants no answer twice (C163_oneway_false). Conditions: owners drop only messages under way and tell their fees truly; services make no relay calls while handling a message (C156_reentrant_false); one encoding of messages to the message centers on all chains.
* **C164 calls between EVM and ICON chains through the verifiers of their links, down to the bytes** — `XMix`; partial. Conditions: those of C162 but for the verifiers; texts of messages are ASCII and numbers and lengths such that the encoders write them right (C59) and the EVM can hold them; ICON reads what its runtime wrote (a parameter); BTP block verifiers: the last section taken is one of the chain of blocks, proofs placed as the relay places them (C50) or with positive counts (C49), no hash collision or preimage of zero; those of ICON start at the first section of the network. The events a relay brings to the bridge verifier of ICON are for this chain: it does not look (C142_destination_ignored), so without that condition the property is false. That a relay that brings events tells the truth is what the bridge rests on.
* **C165 announcements of links between ICON message centers lead messages to networks two links away** — `JavaBmc`; proved. Conditions: bodies are read as they were written (C139: shorter than 2^63 bytes); contracts called while a message or claim is handled are no owners and make no relay calls; for one message center alone: announcements that come in are from the chain of the link and for this one (in the network this is proved); for the network: verifiers release what the other chain emitted from the number received on (C40, C41, C50, C135, C142, C143), a link is not added again under the same address, nothing was given up by the owner on the links in question. All chains are ICON.
* **C166 announcements of links keep the tables of EVM message centers consistent across a network** — `SolRoutes`; partial. False in general: of three chains all linked to each other, when one link is removed the announcement of it makes the third chain lose its way over a link it still has (C166_triangle_witness). The partial theorems hold for all networks in which links are made along a relation without triangles, a link is not added again once removed, no link is added for a network with a manual route and no manual route over a link; announcements are read in order, each once (C01, C02, C40, C41). All chains are EVM.
* **C167 from the bytes of relay messages to the messages sent, through the Python verifier** — `PyEnd`; partial. Partial: no service relays for the same link while a message of it is handled (else false, C122_reentrant_twice), the link was added once on the other side, indices below 65536 bytes. That events of the chain are those its message center made is an assumption (Source), as is that its tries are those whose roots stand in the blocks (World.Of). The collision cases name the lists in which the collision is.
* **C168 from relay messages to the messages sent, through the verifier contract for ICON blocks** — `JavaEnd`; partial. Partial: relay messages come decoded and serializations are parameters (one form each); that the events of the chain are those its message center made since the link was added (Source) and that its tries are those whose roots stand in the blocks (World.Of) are assumptions. Order needs that all links have verifiers that release one message at a time. A relay call with two messages is refused (C96_null).
* **C169 tokens over the Python message centers and verifiers of two chains** — `PyTokenEnd`; partial. Partial: of every state on the way it is assumed that the link and the registration of the service stay, messages are shorter than 65536 bytes, nobody else uses the name of the service over the link, and the service sends over the link only to the other network (Wired, Quiet, Sends). Without the last it is false: C169_own_network, where the events of addLink make each message center list itself as reachable over the link, so that a transfer to the own network is credited on the other chain. Calls made while a message for another service is handled are no relay calls (C122).
* **C170 what the relay logs and where it goes** — `RelayLog`; partial. Levels, console, file, forwarded entries, fields and packages are proved. False in two places: an IPv6 address of a fluentd forwarder gives a host cut at its first colon and port 0 (C170_ipv6), and a message with a line break makes several lines, so that one entry can pose as two (C170_forged). A module field that is not a string makes the logger panic. logrus, url.Parse and strings.ToLower are parameters or described in the module.
* **C171 options given on the command line are read as given** — `CliOptions`; partial. Proved for options that need no quotes if the first key begins and the last value ends with no bracket. False otherwise: closing brackets at the end of the last value are lost, whatever the option (C171_bracket_lost). A leading zero means octal (C171_literals); for maps of raw JSON numbers are left out and unreadable text is an empty map (C171_raw). encoding/csv, ParseFloat and the JSON reader are parameters.
* **C172 the sample application on two chains agrees about what happened** — `DApp`; partial. Proved under the conditions of C164 (network, verifiers, neat messages), and those of C141 but for the origin of messages, which is proved here (C172_foreign): rollback data can be read back, names have no slash. The call service does not call its own sendCallMessage (it has no such code). Messages given up (C160, C161) are the one way in which a call is never settled.
* **C173 a subscription to an ICON node hands on every notification once and in order and does not end unnoticed** — `WsMonitor`; partial. The table, the absence of silent ends and the effect of closing are proved for histories in which no connection gets the local address of a monitor that has not returned and nobody closes a monitor that has returned; without these the negation is proved: entries are removed by local address, so the end of one monitor can silently end another. Also proved: MonitorEvent reports an error at every start, a deliberate close is reported as a failure if the read was blocked, and the endpoint is changed at the first "http" anywhere. The look at the table is taken as atomic (the code does not lock there); the websocket library is a parameter.
* **C174 coins are neither stranded nor refunded and paid at once when message centers cannot hand packets over** — `Ncs`, `MixNet`; partial. Proved for requests: their failure on the way is now an event of the histories of C98 and C99. False for answers, because the service sends them with a positive number: the error for a lost answer goes to the chain that answered and refunds, in every such state, the transfer which that chain has under the number, although its own request is still on the way; the transfer that was answered stays locked. Witness: 20000 coins are refunded and 19980 tokens for them are minted on the other chain. The two parts, message center and service, are joined by the model of the network between them (`bounced`), not by one program.
* **C175 a stream of the HTTP client gives the callback every document once and in order, and ends cleanly** — `HttpStream`; partial. The order is proved if no document is decoded while a callback runs and decoding replaces the whole value; in general the callback sees the value after its document or after the next one. False without: the goroutine decodes the next document into the value the callback is looking at (witness), and fields a document lacks keep the values of earlier ones (witness). A goroutine is left behind after every call that was cancelled or ended by the callback (proved for all histories). Decoding and the callback are one step each; torn reads are not modelled. The JSON decoder is a parameter; the HTTP library is not modelled.
* **C176 native coins stay backed when the services of two chains speak through their message centers** — `NcsEnd`; partial. Proved by a simulation: every step of the two chains is a step of the model of C98 and C99 or none. Conditions: each message of the service is handed to the other message center once (C41, C42, C162), the service stays registered when messages arrive, answers do not fail on the way and errors find the link back open (else false, see C174), the services send only to each other, each reads what the other wrote (C153).
* **C177 fees of the native coin service are taken only for transfers that succeeded, and never leave the contract** — `Ncs`; proved. A finding more than a guarantee: no call pays the fees to anyone.
* **C178 what a JSON-RPC call makes of the answer of a node** — `JsonRpc`; partial. Proved as stated; partial because that a call never panics, and that an answer belongs to its request, are false of the code. JSON and the HTTP library are parameters.
* **C179 archives of directories hold exactly the files that are not excluded** — `Zip`; partial. Proved for trees without symbolic links, files whole if reading does not fail. False otherwise: a file whose reading fails is in the archive cut off and the call succeeds (errors of io.Copy are dropped); the text of a link is looked up from the working directory, and its entry is marked as a link. Links that lead back upwards and the zip format are not modelled. Nothing in the repository calls the function.
* **C180 the debug services send what they are asked to send and note what comes in** — `DebugBsh`; partial. The numbers, sending by hand on ICON, and noting on ICON are proved; the rest is false of the code and the negations are proved: arguments exchanged on ICON (C180_icon_swapped, C180_icon_never), no such method on the EVM (C180_no_method, C180_evm_never, with Keccak-256 computed in the kernel), fields of the event exchanged, and answers for ever (C180_for_ever, for centers that take and deliver everything).
* **C181 what a request of the HTTP client makes of the answer** — `HttpDo`; partial. Proved but for closing: C181_left_open says exactly when the body of an answer is left open. JSON and the HTTP library are parameters.

## Code that is modelled

| Code | Modules |
| --- | --- |
| common/intconv | IntConv, IntText, IntLang |
| common/hexint.go, common/hexbytes.go | HexJson |
| javascore/score-util: StringUtil, ArrayUtil; bmv/icon Validators.java fromString | JavaUtil |
| javascore: readObject/writeObject of 58 classes of lib, bmc, nativecoin, bsh, fee-aggregation, xcall, bmv/btpblock and bmv/icon | JavaObj |
| common/codec/rlp.go, codec.go (typed values) | Rlp |
| common/codec/rlp.go, codec.go: maps, custom methods, values and pointers, lists of objects, Skip; hexint.go | RlpObj |
| solidity/bmc: several message centers and the messages between them (environment model: pool of emitted messages; links read by number) | SolNet, SolLinks, SolAnswer |
| solidity/bmc and solidity/xcall on every chain: the call service gives its messages to the message center in the same transaction and is called by it; contracts called may call both back | XCallNet, XCallNetMoves, XCallNetSteps, XCallNetInv, XCallNetLive, XCallNetProj, XCallOpen |
| solidity/bmc on some chains and javascore/bmc on others: the two models of the message center in one network, over the same messages | JavaMoves, MixNet; fees and rewards of all of them: MixMoney, MixMoneyNet |
| the two of them with solidity/xcall and javascore/xcall on the chains: both contracts of every chain together | XMix, XMixMoves, XMixSteps, XMixInv, XMixLive; with numbered links: XMixLinks, XMixLinksInv; with the verifiers of the links, from bytes: SolBmcGrow, XMixNum, XMixVerified |
| javascore/bmc: announcements of links, in a network of ICON message centers | JavaRoutes, JavaRoutesInv over JavaBmc |
| solidity/bmc: announcements of links (BMCManagement.sol:216-290, 614-630, BMCService.sol:280-291), in a network of EVM management contracts | SolAnn over SolRoutes |
| pyscore/bmv/icon and pyscore/bmc together: relayed bytes to sent messages of the other chain | PyEnd over PyBmv, PyBmc |
| javascore/bmv/icon and javascore/bmc together: relay messages to sent messages of the other chain | JavaEnd over JavaIconBmv, JavaBmc |
| pyscore/token, pyscore/bmc and pyscore/bmv/icon of two chains together | PyTokenEnd over PyTokenNet, PyEnd |
| e2edemo dapp-sample of several chains over call services, message centers and verifiers together | DAppNet over DApp, XMixVerified |
| common/log (log.go, forwarder.go, levels, formatter, filter), cmd/relay `setLogger` | RelayLog |
| common/cli/helper.go `StringToStringConv` | CliOptions |
| common/config/fileconfig.go (paths), cmd/relay/main.go (save, start, log file), cmd/relay/linkfatory.go (which links) | RelayConfig |
| common/mbt | Mbt, Merkle, MbtSound |
| common/mta | Mta, MtaData, MtaDb |
| common/mpt/mpt.go | MptProof |
| common/address.go, common/types/btpaddress.go, the BTPAddress of Java and Solidity | Address, BtpAddress |
| common/db (map, goleveldb, layer) | LayerDb |
| common/errors, chain/icon/client/error.go, chain/ethbr/client/error.go, BTPException.java | Errors |
| common/crypto/signature.go, key.go; common/wallet; cmd/relay/main.go (EnsureWallet) | Wallet |
| common/link/link.go | Link |
| chain/icon/btp2, chain/icon/bridge, chain/ethbr/receiver.go and message.go | Receiver, Monitor |
| chain/icon/sender.go, chain/ethbr/sender.go, the transaction functions of the two clients | Sender, Fragment |
| chain/icon/client/serialize.go, IconOptions of client.go | Serialize, IconOptions |
| MonitorBlock, Poll of chain/ethbr/client; MonitorBTP; cmd/relay/linkfatory.go | Monitor |
| chain/icon/client/client.go: the websocket monitors and their table of connections | WsMonitor |
| NativeCoinService.java answers that the message center cannot hand over (with BTPMessageCenter.java:558-637) | NcsFail |
| NativeCoinService.java on BTPMessageCenter.java, two chains | NcsEnd |
| NativeCoinService.java: the fees | NcsFees |
| common/jsonrpc/client.go (`Do`, `_do`, `decodeResponseBody`), `NewHttpError` of common/http.go | JsonRpc |
| common/http.go: `_do`, `Do`, `readResponseBody` | HttpDo |
| common/cli/helper.go: `addDirectoryToZip`, `ZipDirectory` | Zip |
| DebugBSH.java, DebugBSH.sol, the methods of BMCPeriphery.sol | DebugBsh, Keccak (no code of the repository) |
| common/http.go: streams and addresses of the HTTP client | HttpStream |
| javascore/bmc (message center, EnumerableDictDB, owners, fees, fragments) | JavaBmc, EnumDict, JavaOwners, Fragment |
| javascore/bmv/icon (accumulator, trie proofs, verifier) | JavaMta, JavaMpt, JavaIconBmv |
| javascore/nativecoin (service, token supplier; two chains with message centers) | Tab, Ncs, NcsSys |
| javascore/bsh (token service ServiceHandler, IRC2Basic) | TokenBsh |
| javascore/fee-aggregation (FeeAggregationSCORE, Syndication, Token) | FeeAgg |
| pyscore/lib/icon/db.py (dictionaries, properties, arrays) | PyInt, PyDb |
| pyscore/lib (rlp.py, base64.py, btp_address.py) | PyRlp, PyBase64, PyAddr |
| pyscore/lib/icon (mta.py, mpt.py), pyscore/bmv/icon (icon.py, message.py) | PyMta, PyMpt, PyBmv |
| pyscore/bmc (bmc.py, link.py, message.py, permission.py, relay.py) | PyBmc |
| pyscore/token/token_bsh.py | PyToken (two services and a network between them: PyTokenNet) |
| javascore/bmv/bridge, solidity/bmv-bridge | BmvBridge |
| javascore/bmv/btpblock | BtpBlock, JavaBtpBlock, Mbt |
| solidity/bmc (Periphery, Service, Management, Utils) | SolBmc, SolRoutes |
| solidity/bmc RLP libraries | SolRlp (on byte strings), SolMem (on EVM memory, with bmv Utils.sol splitSignature) |
| solidity/bmv | SolBtpBlock, SolProof, SolQueue (the circular queue), SolRelay (decoding of relay messages, on memory) |
| javascore/xcall, solidity/xcall | XCall, XCallSys |
| e2edemo: sample application DAppProxySample (Java, Solidity), over the call service | DApp |
| a link from ICON to an EVM chain: message centers of both, codecs, verifier | EndToEnd (composes JavaBmc, SolRlp, SolRelay, SolBmc) |
| a link from an EVM chain to ICON with the bridge verifier: message centers of both, codec, verifier | EvmToIcon (composes SolBmc, SolRlp, BmvBridge, JavaBmc) |
| a link from ICON to ICON with the block verifier, and messages given up on links with block verifiers | IconToIcon, DropBlock (compose JavaBmc, JavaBtpBlock, SolBmc, SolBtpBlock, EndToEnd) |
| javascore/fee-aggregation: CPFTreasury, bandProtocol | PyCpf |
| javascore/fee-aggregation/SampleMultiToken, pyscore/token/sample/irc2 | PyMulti |
| /repo/solidity: ParseAddress.sol, String(s).sol, Integers.sol | SolText |
| javascore/bmc, javascore/xcall: written form of the messages to other chains | JavaMsgs |

## Code that is not modelled

* Networks, nodes, HTTP, websockets, JSON, files, timers and the Go scheduler. Where code waits on them, their answers are parameters.
* Reflection in common/codec (types are given as descriptions or codecs; interfaces are left out), common/codec/msgpack.go, common/log, common/cli,
  common/http.go; of common/config the JSON of Save and Load.
* Cryptography: secp256k1, Keccak, SHA3, AES-CTR, scrypt, HKDF are parameters.
* The SCORE runtime's own RLP codec (`ObjectReader`/`ObjectWriter`) is taken to be the codec of the Rlp module where contracts
  exchange data with the relay.
* How chains report reverts: a contract's revert code c is taken to reach the relay as failure 32 + c, as goloop does.
* Gas and step limits, contract size, storage layout, upgrade proxies, re-entrancy other than where a definition says so.
* The sample and debug contracts other than the above, the tests and mocks, the rest of e2edemo; of pyscore (older Python contracts) only what the table names.

## Trusted base

* The Lean 4.33.0 kernel. `decide +kernel` is kernel evaluation; `native_decide` and `bv_decide` are not used.
* Axioms: at most `propext`, `Classical.choice`, `Quot.sound`, listed per theorem below. No own axioms, no `sorry`. Mathlib is not imported.
* The reading of the source code into the models (no extraction, no testing against the code).
* Library behaviour taken as given and recorded in the definition comments: Go `io`, `math/big`, `strconv`, `strings`, `path/filepath`;
  ICON `ObjectReader/Writer`; Solidity 0.8 checked arithmetic.

## Axioms of each theorem

As printed by `#print axioms` for the theorems of `MANIFEST.json`; the prefix `Verif.` is left out.

* Classical.choice, Quot.sound, propext: `IntConv.C01_int64_roundtrip`, `IntConv.C01_bytesToInt64_value`, `IntConv.C01_int64_unique`, `IntConv.C02_uint64_roundtrip`, `IntConv.C03_size_roundtrip`, `IntConv.C03_size_minimal`, `IntConv.C04_bigInt_roundtrip`, `IntConv.C04_bigIntSetBytes_value`, `IntConv.C04_bigInt_bijection`, `IntConv.C04_encoders_agree`, `IntText.C05_format_text`, `IntText.C05_bigInt_roundtrip`, `IntText.C05_int_roundtrip`, `IntText.C05_uint_roundtrip`, `Rlp.C06_wire_format`, `Rlp.C06_roundtrip`, `Rlp.C06_roundtrip_top`, `Rlp.C06_normal_form`, `Rlp.C07_readRaw`, `Rlp.C07_prefix_free`, `Rlp.C07_injective`, `Rlp.C07_stream`, `Rlp.C08_scalar_truncation_partial`, `Rlp.C08_list_truncation_partial`, `Rlp.C09_canonical_partial`, `Rlp.C10_no_panic_partial`, `Rlp.C10_no_long_headers_partial`, `Mbt.C11_bulk_root`, `Mbt.C11_add_commits_partial`, `Mbt.C12_path`, `Mbt.C13_range_proof`, `Mbt.C14_soundness_partial`, `Mbt.C15_java_accepts`, `SolProof.C15_solidity_accepts`, `Mta.C16_structure`, `Mta.C17_witness`, `Mta.C17_add_witness`, `Mta.C18_sound_partial`, `Mta.C19_prefix_witness`, `Mta.C20_newer_accepts`, `Mta.C20_older_iff_partial`, `Mta.C20_older_refused`, `Mta.C20_older_panics`, `Mta.C21_wire`, `Mta.C22_progress`, `Mta.C22_crash`, `Mta.C23_ext_partial`, `Fragment.C24_history`, `Serialize.C25_decimal`, `Serialize.C25_decimal_injective`, `BtpAddress.C26_go_parts`, `BtpAddress.C26_go_network`, `BtpAddress.C26_sol_parse_iff`, `BtpAddress.C26_java_parse`, `BtpAddress.C26_java_sol_agree`, `BtpAddress.C26_go_sol_agree`, `BtpAddress.C26_fails`, `Address.C27_canonical_text`, `Address.C27_stale_bytes`, `LayerDb.C29_level_exact`, `LayerDb.C29_merkle_trie_shared`, `LayerDb.C29_hash_keys_partial`, `Receiver.C33_btp2_part`, `Receiver.C33_btp2_first_partial`, `Receiver.C33_btp2_overshoots`, `Receiver.C33_btp2_next_block_skips`, `Errors.C35_class_partial`, `Errors.C35_apply_accepts`, `Sender.C35_end_to_end`, `Errors.C35_errorc`, `Wallet.C36_rsv`, `Sender.C38_sends`, `Sender.C38_duplicate_empty_hash`, `Sender.C38_other_replies_fail`, `Sender.C38_success_partial`, `Sender.C38_success_without_acceptance`, `Sender.C38_short_message_panics`, `Sender.C38_nil_error_panics`, `Sender.C38_returns_iff`, `BmvBridge.C40_sound`, `BmvBridge.C40_truthful`, `BmvBridge.C40_complete`, `BmvBridge.C40_nothing_dropped`, `SolBmc.C41_bridge_faithful`, `JavaBmc.C41_java_exactly_once`, `JavaBmc.C41_java_removed_links`, `JavaBmc.C41_java_generations`, `JavaBmc.C41_java_in_order_partial`, `JavaBmc.C42_java_consecutive`, `SolRoutes.C43_registered`, `SolRoutes.C43_delivery`, `SolBmc.C44_conserved_partial`, `JavaBmc.C44_java_conserved_partial`, `SolBmc.C45_settled_once`, `JavaBmc.C45_java_settled_once`, `EnumDict.C46_enumeration`, `JavaBmc.C47_java_resolve_order`, `JavaBmc.C47_java_resolved_link`, `SolRoutes.C48_consistent_partial`, `SolRoutes.C48_removable_partial`, `SolRoutes.C48_unlink_partial`, `JavaBtpBlock.C49_java_in_order_partial`, `JavaBtpBlock.C49_java_sequence`, `SolBtpBlock.C50_solidity_in_order_partial`, `SolBtpBlock.C50_solidity_sequence`, `SolBtpBlock.C50_solidity_replay`, `XCall.C53_executed_once`, `XCall.C53_executed_received`, `XCall.C53_ids`, `XCall.C53_one_result`, `XCall.C54_rollback_once`, `XCall.C54_rollback_after_failure`, `XCall.C54_response`, `XCall.C54_sns`, `XCall.C55_honest_partial`, `SolRoutes.C56_never_ownerless`, `SolRoutes.C56_only_owners`, `MptProof.C57_root_determines_partial`, `IconOptions.C58_typed`, `IconOptions.C58_typed_admissible`, `SolRlp.C59_uint`, `SolRlp.C59_int`, `SolRlp.C59_list_header`, `SolRlp.C59_btp_message_roundtrip_partial`, `SolRlp.C59_btp_message_relay_partial`, `SolRlp.C59_bmc_message_roundtrip_partial`, `SolRlp.C59_propagate_roundtrip_partial`, `SolRlp.C59_response_roundtrip_partial`, `SolRlp.C59_init_roundtrip_partial`, `SolRlp.C59_call_message_roundtrip_partial`, `SolRlp.C59_call_request_roundtrip_partial`, `SolRlp.C59_call_response_roundtrip_partial`, `IntText.C61_parseInt_range`, `IntText.C62_parsers_disagree`, `IntText.C62_prefixed_agree_partial`, `Mbt.C65_java_soundness_partial`, `SolProof.C66_solidity_soundness_partial`, `Mta.C67_get_node`, `Mta.C68_verify_len_sound`, `Mta.C69_data_stored`, `SolRoutes.C70_tables`, `SolRoutes.C70_service_fixed`, `JavaBmc.C71_java_network_numbers_partial`, `JavaBmc.C71_java_network_unique`, `JavaBmc.C72_java_drop`, `JavaBtpBlock.C73_java_range`, `JavaBtpBlock.C73_java_block`, `JavaBtpBlock.C73_java_chain`, `JavaBtpBlock.C73_java_first_number_stuck`, `SolBtpBlock.C73_solidity_range`, `SolBtpBlock.C73_solidity_block`, `SolBtpBlock.C73_solidity_chain`, `JavaBtpBlock.C75_java_decision_commits`, `SolBtpBlock.C75_solidity_decision_commits`, `XCall.C76_atomic`, `XCall.C76_success`, `XCall.C76_integrity`, `XCall.C76_once`, `XCall.C77_send_succeeds`, `XCall.C79_executable`, `Receiver.C81_btp2_cut_panics`, `Receiver.C82_btp2_ignores_limit`, `Receiver.C84_btp2_delivers_partial`, `Receiver.C84_btp2_messages_partial`, `Sender.C86_reports_are_true`, `Sender.C86_evm_code_reported_partial`, `Sender.C86_evm_silent_example`, `Sender.C86_evm_negative_is_success`, `JavaMta.C93_structure`, `JavaMta.C93_sound`, `JavaMta.C93_newer_height`, `JavaMta.C93_height_not_bound`, `JavaMta.C93_position_partial`, `JavaMta.C93_relay_accepted`, `JavaMta.C93_newer_accepted`, `JavaMpt.C94_index_partial`, `JavaIconBmv.C95_votes`, `JavaIconBmv.C95_overlap`, `JavaIconBmv.C95_history`, `JavaIconBmv.C95_next_iff`, `JavaIconBmv.C95_fork`, `JavaIconBmv.C96_messages`, `JavaIconBmv.C96_access`, `JavaIconBmv.C96_receipt_partial`, `JavaIconBmv.C96_proof_keeps`, `JavaIconBmv.C96_events_accepted`, `JavaIconBmv.C96_events_refused`, `Ncs.C97_locked_is_pending`, `Ncs.C97_coins_accounted`, `Ncs.C97_tokens_accounted`, `Ncs.C97_native_transfer`, `Ncs.C97_reclaim_tokens`, `Ncs.C98_coins_cover_claims`, `Ncs.C98_tokens_backed_by_coins`, `Ncs.C98_reclaim_coins`, `Ncs.C98_request_is_paid`, `Ncs.C99_one_packet_per_transfer`, `Ncs.C99_paid_is_settled`, `Ncs.C99_paid_is_settled_partial`, `Ncs.C99_all_settled_when_delivered`, `Ncs.C100_only_center_answers_partial`, `Ncs.C101_answer_carried_out`, `Ncs.C101_error_refunds`, `Ncs.C101_fees_never_leave`, `TokenBsh.C102_amounts_partial`, `TokenBsh.C102_locked_partial`, `FeeAgg.C107_locked_is_promised`, `FeeAgg.C107_held_partial`, `FeeAgg.C107_claim_pays_partial`, `FeeAgg.C108_coins`, `FeeAgg.C108_refunds_take_deposits`, `FeeAgg.C108_no_refund_without_auction`, `FeeAgg.C108_deposits_there_partial`, `FeeAgg.C109_ended_partial`, `FeeAgg.C109_discount`, `PyDb.C112_map_partial`, `PyDb.C112_comma_refused`, `PyDb.C112_remove_of_added`, `PyDb.C113_every_second_stays`, `PyDb.C113_added_all_stay`, `PyDb.C113_one_key_partial`, `PyDb.C114_last_value`, `PyDb.C114_unset`, `PyDb.C114_remove_all`, `PyRlp.C115_bytes_partial`, `PyRlp.C115_list_partial`, `PyRlp.C115_int`, `PyRlp.C115_roundtrip_partial`, `PyRlp.C115_reads_as_relay`, `PyBase64.C116_unpadded`, `PyAddr.C117_compose_partial`, `PyAddr.C117_java_partial`, `PyAddr.C117_cuts`, `PyAddr.C117_text_back`, `PyMta.C118_as_java`, `PyMta.C118_structure`, `PyMta.C118_sound_partial`, `PyMta.C118_accepts_as_java`, `PyMta.C118_relay_accepted`, `PyMta.C118_height_not_bound`, `PyMta.C118_stored`, `PyMpt.C119_extension_partial`, `PyMpt.C119_sound_partial`, `PyMpt.C119_index_partial`, `PyMpt.C119_complete_partial`, `PyMpt.C119_embedded_extension_refused`, `PyMpt.C119_branch_value_encoded`, `PyMpt.C119_longer_path_accepted`, `PyBmv.C120_votes`, `PyBmv.C120_overlap`, `PyBmv.C120_history`, `PyBmv.C120_fork`, `PyBmv.C120_proof_codes`, `PyBmv.C120_accepts_partial`, `PyBmv.C121_messages`, `PyBmv.C121_messages_iff`, `PyBmv.C121_access`, `PyBmv.C121_receipt_partial`, `PyBmv.C121_event_partial`, `PyBmv.C121_event_read`, `PyBmc.C122_sent`, `PyBmc.C122_sent_once`, `PyBmc.C122_taken_partial`, `PyBmc.C122_genuine`, `PyBmc.C122_exactly_once_partial`, `PyBmc.C122_reentrant_twice`, `PyBmc.C122_right`, `PyBmc.C123_owner`, `PyBmc.C123_nobody`, `PyBmc.C123_granted`, `PyBmc.C123_emptied_stays`, `PyBmc.C123_removed_never_back`, `PyBmc.C123_twice`, `PyBmc.C123_revoked_partial`, `PyBmc.C123_relayers_unchecked`, `PyBmc.C124_link_has_verifier`, `PyBmc.C124_remove_verifier`, `PyBmc.C124_relays_survive`, `PyBmc.C124_two_links`, `PyBmc.C124_route_without_link`, `PyBmc.C125_only_relays`, `PyBmc.C125_someone`, `PyBmc.C125_turns`, `PyBmc.C125_everyone`, `PyBmc.C125_remove_fails`, `PyBmc.C125_anyone`, `PyBmc.C126_poison`, `PyBmc.C126_call_fails`, `PyBmc.C126_never_passed_partial`, `PyBmc.C126_anyone_can`, `PyBmc.C126_handled_partial`, `PyBmc.C127_forwarded`, `PyBmc.C127_unreadable`, `PyBmc.C127_answers`, `PyBmc.C127_direct`, `PyBmc.C127_sent_to_next`, `PyBmc.C127_event_from_anywhere`, `PyBmc.C127_error_becomes_request`, `PyBmc.C127_foreign_event`, `PyBmc.C127_bad_event`, `PyBmc.C127_misdelivered`, `PyToken.C128_ledger`, `PyToken.C128_locked`, `PyToken.C128_locked_nonneg`, `PyToken.C128_usable_partial`, `PyToken.C128_negative`, `PyToken.C129_numbers`, `PyToken.C129_ends_once`, `PyToken.C129_pending`, `PyToken.C129_answered`, `PyToken.C129_error`, `PyToken.C129_any_network`, `PyToken.C129_error_for_answer`, `PyToken.C129_code_false`, `PyToken.C129_error_codes`, `PyToken.C130_names`, `PyToken.C130_contract_fixed`, `PyToken.C130_deposit`, `PyToken.C130_stranger`, `PyToken.C130_never_again`, `PyToken.C130_unregister_stops_deposits_only`, `PyToken.C130_same_contract`, `PyToken.C131_request`, `PyToken.C131_only_center`, `PyToken.C131_raises`, `PyToken.C131_blocks`, `PyToken.C131_unknown`, `PyToken.C131_bounce`, `PyToken.C131_replay`, `PyToken.C132_received_once`, `PyToken.C132_not_both`, `PyToken.C132_settled_received`, `PyToken.C132_resolved`, `PyToken.C132_conserved`, `PyToken.C132_backed`, `PyToken.C132_values`, `PyToken.C132_usable`, `SolRelay.C133_roundtrip`, `SolRelay.C133_init`, `SolRelay.C133_in_order_partial`, `SolRelay.C133_chain`, `SolRelay.C133_go_relay`, `SolRelay.C133_go_proof`, `IntText.C134_go_uint`, `IntText.C134_go_int`, `IntText.C134_parseInt`, `IntText.C134_parseUint`, `EndToEnd.C135_codec`, `EndToEnd.C135_released`, `EndToEnd.C135_given`, `EndToEnd.C135_end_to_end_partial`, `EndToEnd.C135_progress`, `EndToEnd.C135_seen_inj`, `EndToEnd.C135_ascii`, `SolText.C136_parse`, `SolText.C136_roundtrip`, `SolText.C136_checksum`, `SolText.C136_never_valid`, `SolText.C138_toString`, `SolText.C138_toString_reverts`, `XCall.C138_error_enables_partial`, `XCall.C138_error_lost_witness`, `JavaMsgs.C139_bmc_message`, `JavaMsgs.C139_init`, `JavaMsgs.C139_link`, `JavaMsgs.C139_response`, `JavaMsgs.C139_claim`, `JavaMsgs.C139_call_message`, `JavaMsgs.C139_call_request`, `JavaMsgs.C139_call_response`, `JavaMsgs.C139_number_limit`, `JavaMsgs.C139_evm_bmc_message_partial`, `JavaMsgs.C139_evm_init_partial`, `JavaMsgs.C139_evm_link_partial`, `JavaMsgs.C139_evm_response_partial`, `JavaMsgs.C139_evm_call_message_partial`, `JavaMsgs.C139_evm_call_request_partial`, `JavaMsgs.C139_evm_call_response_partial`, `SolBmc.C140_evm_drop_refused`, `EndToEnd.C140_evm_unreadable`, `EndToEnd.C140_evm_huge`, `EndToEnd.C140_evm_writable`, `DApp.C141_rollbacks_partial`, `DApp.C141_once_partial`, `DApp.C141_after_failure_partial`, `DApp.C141_never_fails_partial`, `DApp.C141_possible_partial`, `DApp.C141_messages_partial`, `DApp.C141_calls_partial`, `DApp.C141_sent_partial`, `DApp.C141_abi`, `DApp.C141_evm_ok`, `DApp.Demo.C141_forged_witness`, `DApp.Demo.C141_forged_empty_witness`, `DApp.Demo.C141_kept_witness`, `EvmToIcon.C142_codec_partial`, `EvmToIcon.C142_ascii`, `EvmToIcon.C142_one_at_a_time`, `EvmToIcon.C142_two_refused`, `EvmToIcon.C142_end_to_end_partial`, `EvmToIcon.C142_in_order`, `EvmToIcon.Demo.C142_other_link_witness`, `IconToIcon.C143_released`, `IconToIcon.C143_end_to_end_partial`, `IconToIcon.C143_progress`, `IconToIcon.C144_java_ahead`, `IconToIcon.C144_java_drop_blocks`, `DropBlock.C144_sol_apart`, `DropBlock.C144_sol_ahead`, `DropBlock.C144_sol_drop_blocks`, `DropBlock.C144_bridge_partial`, `PyCpf.C145_money`, `PyCpf.C145_pages`, `PyMulti.C147_list_partial`, `PyMulti.C147_log_partial`, `PyCpf.Ref.C148_last`, `PyCpf.Ref.C148_bulk`, `HexJson.C149_roundtrip`, `HexJson.C149_range`, `HexJson.C149_number`, `HexJson.C149_null_zero`, `HexJson.C149_rlp`, `HexJson.C149_raw_bytes`, `HexJson.C149_bytes`, `HexJson.C149_bytes_roundtrip`, `JavaUtil.C150_validators_iff`, `JavaUtil.C150_empty`, `JavaUtil.C150_dead`, `JavaUtil.C150_hex_partial`, `JavaUtil.C150_hex_roundtrip`, `JavaUtil.C150_upper`, `SolMem.C151_memcpy`, `SolMem.C151_flatten`, `SolMem.C151_concat`, `SolMem.C151_splitSignature`, `SolMem.C151_address_partial`, `SolMem.C151_tests`, `SolMem.C151_toUint`, `SolMem.C151_toBytes`, `SolMem.C151_toRlpBytes`, `SolMem.C151_toList`, `SolMem.C151_toList_none`, `JavaObj.C153_bmc_partial`, `JavaObj.C153_nativecoin`, `JavaObj.C153_xcall`, `JavaObj.C153_bsh`, `JavaObj.C153_btpblock`, `JavaObj.C153_icon_partial`, `JavaObj.C153_stable`, `JavaObj.C153_parsed_stable`, `JavaObj.C153_own_stable`, `JavaObj.C153_header_injective`, `JavaObj.C153_reencode_false`, `RlpObj.C154_constructors`, `RlpObj.C154_hex`, `RlpObj.C154_by_value_false`, `RlpObj.C154_map`, `RlpObj.C154_map_bytes`, `RlpObj.C154_map_last`, `RlpObj.C154_map_refused`, `RlpObj.C154_listOf`, `RlpObj.C154_skip`, `RelayConfig.C155_save_false`, `RelayConfig.C155_keystore_false`, `RelayConfig.C155_links`, `RelayConfig.C155_links_total`, `RelayConfig.C155_options_false`, `SolNet.net_step`, `SolNet.net_reach`, `SolNet.C156_balance`, `SolNet.C156_credited_backed`, `SolNet.C156_solvent`, `SolNet.C156_claim_covered`, `SolNet.C156_paid_covered`, `SolNet.Demo.story_reach`, `SolNet.link_step`, `SolNet.link_reach`, `SolNet.C157_in_order`, `SolNet.C157_solvent`, `SolNet.C157_claim_covered`, `SolNet.Demo.lstory_reach`, `SolNet.C158_once`, `SolNet.C158_done`, `SolNet.C158_genuine`, `SolNet.C158_numbers`, `SolNet.C158_accounted`, `SolNet.C158_never`, `SolNet.link_treach`, `SolNet.C158_link_once`, `SolNet.C158_link_genuine`, `SolNet.C158_link_done`, `SolNet.Demo.asked_reach`, `SolNet.Demo.failed_reach`, `SolNet.Demo.C158_reuse_false`, `XNet.C159_network`, `XNet.C159_solvent`, `XNet.C159_calls`, `XNet.C159_atomic`, `XNet.C159_success`, `XNet.C159_integrity`, `XNet.C159_once`, `XNet.C159_settled`, `XNet.C159_accounted`, `XNet.C159_answerable`, `XNet.jreach_all`, `XNet.jreach_treach`, `XNet.exec_answers`, `XNet.Demo.good2`, `XNet.Demo.good9`, `MixNet.C160_once`, `MixNet.C160_done`, `MixNet.C160_genuine`, `MixNet.C160_numbers`, `MixNet.C160_accounted`, `MixNet.C160_never`, `MixNet.reach_inv`, `MixNet.Demo.both_reach`, `MixNet.Demo.fallen_reach`, `MixNet.Demo.C160_fallen_false`, `XMix.C161_network`, `XMix.C161_calls`, `XMix.C161_atomic`, `XMix.C161_success`, `XMix.C161_integrity`, `XMix.C161_once`, `XMix.C161_settled`, `XMix.C161_accounted`, `XMix.C161_answerable_evm`, `XMix.C161_answerable_icon`, `XMix.reach_xinv`, `XMix.Step.moves`, `XMix.Demo.V_good`, `XMix.Demo.W1_good`, `XMix.Demo.L1_good`, `XMix.Demo.C161_lost_false`, `XMix.irun_due`, `XMix.Demo.C161_answerable_owner_false`, `XMix.C162_network`, `XMix.C162_in_order`, `XMix.C162_numbers`, `XMix.C162_atomic`, `XMix.C162_success`, `XMix.C162_integrity`, `XMix.C162_once`, `XMix.C162_settled`, `XMix.C162_accounted`, `XMix.C162_drained`, `XMix.lreach_inv`, `XMix.LInv.step`, `XMix.LDemo.W2_good`, `MixNet.C163_balance`, `MixNet.C163_credited_backed`, `MixNet.C163_covered`, `MixNet.C163_solvent_partial`, `MixNet.C163_claim_covered_partial`, `MixNet.Money.C163_unrouted_false`, `MixNet.Money.C163_oneway_false`, `MixNet.mnet_reach`, `MixNet.mnet_step`, `MixNet.quiet_loc`, `MixNet.relay_loc`, `MixNet.drop_loc`, `MixNet.Money.story_reach`, `XMix.C164_released`, `XMix.C164_network`, `XMix.C164_numbers`, `XMix.C164_in_order`, `XMix.C164_atomic`, `XMix.C164_success`, `XMix.C164_integrity`, `XMix.C164_once`, `XMix.C164_settled`, `XMix.C164_bridge_evm`, `XMix.C164_bridge_icon`, `XMix.evm_reads`, `XMix.icon_reads`, `XMix.blockRun_out`, `XMix.jblockRun_out`, `XMix.shown_numbered`, `XMix.lreach_line`, `XMix.vreach_lreach`, `XMix.VDemo.R_ok`, `XMix.VDemo.V3_good`, `JavaBmc.Ann.C165_told`, `JavaBmc.Ann.C165_learnt`, `JavaBmc.Ann.C165_own`, `JavaBmc.Ann.C165_network`, `JavaBmc.Ann.C165_next`, `JavaBmc.Ann.NReach.ninv`, `JavaBmc.Ann.Demo.setup`, `JavaBmc.Ann.Demo.reach`, `SolRoutes.C166_consistent_partial`, `SolRoutes.C166_removable_partial`, `SolRoutes.C166_handled_partial`, `SolRoutes.C166_reach_partial`, `SolRoutes.C166_next_partial`, `SolRoutes.NReach.ninv`, `PyEnd.C167_honest`, `PyEnd.C167_verified`, `PyEnd.C167_exactly_once_partial`, `JavaEnd.C168_honest`, `JavaEnd.C168_events`, `JavaEnd.C168_verified`, `JavaEnd.C168_one`, `JavaEnd.C168_exactly_once_partial`, `JavaEnd.C168_in_order_partial`, `PyTokenEnd.C169_refines_partial`, `PyTokenEnd.C169_received_once_partial`, `PyTokenEnd.C169_not_both_partial`, `PyTokenEnd.C169_resolved_partial`, `PyTokenEnd.C169_backed_partial`, `PyTokenEnd.C169_sound`, `PyTokenEnd.C169_own_network`, `RelayLog.C170_levels`, `RelayLog.C170_parse`, `RelayLog.C170_where`, `RelayLog.C170_forwarded`, `RelayLog.C170_forwarder_partial`, `RelayLog.C170_fields`, `RelayLog.C170_one_line_partial`, `RelayLog.C170_forged`, `RelayLog.C170_module_panics`, `CliOptions.C171_read_partial`, `CliOptions.C171_text`, `CliOptions.C171_literals`, `DApp.C172_foreign`, `DApp.C172_rollback`, `DApp.C172_messages`, `DApp.C172_pair`, `DApp.C172_reported`, `DApp.C172_drained`, `DApp.NetDemo.onA`, `DApp.NetDemo.onB`, `DApp.NetDemo.U3_good`, `DApp.NetDemo.onA2`, `DApp.NetDemo.onB2`, `WsMonitor.C173_notifications`, `WsMonitor.C173_failure_ends`, `WsMonitor.C173_table_partial`, `WsMonitor.C173_no_silent_end_partial`, `WsMonitor.C173_close_stops_partial`, `WsMonitor.C173_event_starts_with_error`, `WsMonitor.C173_errors_are_real`, `WsMonitor.C173_callback`, `WsMonitor.C173_btp2`, `WsMonitor.C173_endpoint`, `WsMonitor.C173_endpoint_host`, `Ncs.C174_requests_partial`, `Ncs.C174_failed_request_refunds`, `Ncs.C174_lost_answer_strands`, `Ncs.C174_lost_answer_refunds_another`, `HttpStream.C175_address`, `HttpStream.C175_base`, `HttpStream.C175_two_schemes_false`, `HttpStream.C175_no_base_false`, `HttpStream.C175_params`, `NcsEnd.C176_refines_partial`, `NcsEnd.C176_backed_partial`, `NcsEnd.C176_one_message_partial`, `NcsEnd.C176_paid_partial`, `NcsEnd.C176_addressed`, `Ncs.C177_fees_stay`, `Ncs.C177_coins_stay`, `DebugBsh.C180_no_method`, `DebugBsh.C180_evm_never`
* Quot.sound, propext: `IntConv.C02_bytesToUint64_value`, `IntConv.C03_bytesToSize_value`, `Rlp.C06_nilable_targets`, `Rlp.C08_list_truncation_accepted`, `Rlp.C09_noncanonical_accepted`, `Rlp.C10_panic_reachable`, `Rlp.C10_raw_panics`, `Mbt.C11_nil_content`, `Mbt.C11_add_deviates`, `Mbt.C13_out_of_range`, `Mbt.C14_negative_count_forgery`, `Mbt.C14_zero_count_forgery`, `Mta.C18_long_hash_accepted`, `Mta.C22_flush_total`, `Mta.C23_other_offset`, `Mta.C23_low_height`, `Mta.C23_recover`, `Fragment.C24_roundtrip`, `Fragment.C24_size`, `Serialize.C25_serialize_injective_partial`, `Serialize.C25_filter`, `Serialize.C25_number_as_text`, `Address.C27_string_roundtrip`, `Address.C27_bytes_roundtrip`, `Address.C27_string_injective`, `Address.C27_setters_wf`, `Address.C27_independent_partial`, `Address.C27_short_id`, `Address.C27_text_value`, `Address.C27_bad_bytes`, `Address.C27_public_key`, `LayerDb.C28_before_flush`, `LayerDb.C28_flush_true`, `LayerDb.C28_flush_false`, `LayerDb.C28_history`, `LayerDb.C28_map_partial`, `LayerDb.C28_level_partial`, `LayerDb.C29_level_partial`, `LayerDb.C29_ids_partial`, `Link.C31_remove_keeps_the_finished`, `Link.C31_search`, `Receiver.C32_bridge_only_last`, `Receiver.C32_bridge_single_partial`, `Receiver.C32_bridge_empty_block_panics`, `Receiver.C32_bridge_partly_delivered`, `Receiver.C32_refused`, `Receiver.C34_ethbr_panics`, `Receiver.C34_status_last`, `Receiver.C34_multi_event_block_panics`, `Receiver.C34_single_event_partial`, `Receiver.C34_link_panics`, `Errors.C35_negative_is_nil`, `Errors.C35_bmv_unknown_misnamed`, `Errors.C35_apply_recover`, `Errors.C35_apply_type`, `Errors.C35_apply_injective`, `Errors.C35_valueOf_wrong`, `Errors.C35_of_keeps_code`, `Errors.C35_of_code_of_type`, `Errors.C35_ofType_bsh`, `Wallet.C36_lengths`, `Wallet.C37_roundtrip`, `Wallet.C37_wallet`, `Wallet.C37_address`, `Wallet.C37_encrypts`, `Wallet.C37_wrong_mac`, `Wallet.C37_sound`, `Wallet.C37_other_password`, `Wallet.C37_bad_iv_panics`, `Wallet.C37_changed_iv`, `Sender.C38_relay_delivers`, `Sender.C38_client_gaps`, `BmvBridge.C39_java_partial`, `BmvBridge.C39_array_wrong`, `SolBmc.C41_in_order_partial`, `JavaBmc.Demo.faithful`, `JavaBmc.Demo.C41_java_reentrance_witness`, `SolBmc.C42_consecutive`, `SolBmc.C42_all_events`, `JavaBmc.C43_java_delivery`, `JavaBmc.C43_java_added`, `JavaBmc.C43_java_half_stays`, `JavaBmc.C43_java_removed_partial`, `JavaBmc.Demo.C43_java_stale_relay_witness`, `SolBmc.C44_handleFee`, `JavaBmc.C44_java_forward`, `JavaBmc.Demo.C44_java_collected_twice_witness`, `JavaBmc.Demo.C44_java_drop_lost_witness`, `JavaBmc.Demo.C44_java_value_lost_witness`, `SolBmc.C45_refund`, `SolBmc.C45_destination`, `JavaBmc.C45_java_refund`, `JavaBmc.C45_java_always_credited`, `JavaBmc.Demo.C45_java_credited_and_refunded_witness`, `JavaBmc.Demo.C45_java_spoofed_response_witness`, `EnumDict.C46_map`, `SolRoutes.Demo.C48_link_over_reachable_witness`, `SolRoutes.Demo.C48_manual_over_link_witness`, `SolRoutes.Demo.C48_unlink_deletes_link_witness`, `SolRoutes.Demo.C48_duplicate_report_witness`, `SolRoutes.Demo.C48_false_withdrawal_witness`, `JavaBtpBlock.C49_java_zero_count_forgery`, `JavaBtpBlock.C49_java_network`, `SolBtpBlock.C50_solidity_zero_count_forgery`, `JavaBtpBlock.C51_java_one_step`, `JavaBtpBlock.C51_java_two_networks_partial`, `JavaBtpBlock.C51_java_deep_wrong`, `SolBtpBlock.C51_solidity_root`, `JavaBtpBlock.C52_java_quorum`, `JavaBtpBlock.C52_java_accepted`, `SolBtpBlock.C52_solidity_quorum`, `SolBtpBlock.C52_solidity_update`, `SolBtpBlock.C52_solidity_accepts`, `SolBtpBlock.C52_solidity_accepted_partial`, `SolBtpBlock.C52_solidity_duplicate_witness`, `SolBtpBlock.C52_recover`, `XCall.C53_code`, `XCall.C53_failed_call`, `XCall.C55_any_network`, `JavaOwners.C56_java_only_owners`, `JavaOwners.C56_java_once_partial`, `MptProof.C57_accepted`, `MptProof.C57_node_kind`, `MptProof.C57_chain_partial`, `MptProof.C57_appended_leaf`, `MptProof.C57_last_not_leaf_panics`, `MptProof.C57_empty_path_panics`, `MptProof.C57_empty`, `IconOptions.C58_roundtrip_partial`, `IconOptions.C58_exact`, `SolRlp.C59_byte_80_witness`, `SolRlp.C59_nsn_128_witness`, `SolRlp.C59_payload_80_witness`, `Monitor.C60_exact`, `Monitor.C60_prefix`, `Monitor.C60_poll`, `Monitor.C60_poll_gives_up`, `IntText.C61_parseUint_range`, `Rlp.C63_nil_only_from_marker`, `IntText.C64_parseBigInt_language`, `Mbt.C65_negative_count_forgery`, `Mbt.C65_zero_count_forgery`, `SolProof.C66_zero_count_forgery`, `JavaBmc.Demo.C71_java_rebound_witness`, `JavaBmc.C72_java_drop_accepts`, `JavaBtpBlock.C73_java_offset_stuck`, `SolBtpBlock.C73_solidity_absent_validator`, `JavaBtpBlock.C74_java_handover`, `JavaBtpBlock.C74_java_context_invariant`, `SolBtpBlock.C74_solidity_flag_partial`, `SolBtpBlock.C74_solidity_any_validators`, `XCall.C77_conservation`, `XCall.C77_send_fees`, `XCall.C78_admin_only`, `XCall.C78_center_only`, `XCall.C79_rollback_possible`, `Link.C80_items_flow`, `Receiver.C81_btp2_two_pending`, `Link.C82_size_partial`, `Link.C83_proofLoop_spins`, `Link.C83_checkStatus_spins`, `Receiver.C83_btp2_big_update_spins`, `Sender.C86_reverted_is_reported_partial`, `Sender.C86_other_failure_silent`, `Sender.C86_query_failure_looks_like_success`, `Sender.C86_no_failure_object_panics`, `Sender.C86_evm_no_code`, `Sender.C86_evm_other_reason_silent`, `Sender.C86_evm_waits`, `Wallet.C87_uncompressed`, `Wallet.C87_same_key`, `Wallet.C87_lengths`, `Wallet.C87_not_a_point`, `Wallet.C88_roundtrip_partial`, `Wallet.C88_uncompressed_recipient`, `Wallet.C88_evm_no_secret`, `Wallet.C89_src_secret_ignored`, `Wallet.C89_partial`, `Wallet.C89_generated_is_icon`, `Monitor.C90_ethbr_partial`, `Monitor.C90_ethbr_subscription_partial`, `Monitor.C90_btp2_failed_fetch`, `Monitor.C90_btp2_partial`, `Monitor.C90_bridge_failed_fetch`, `Monitor.C91_link_ends_iff`, `Monitor.C91_nothing_stops_a_link`, `Monitor.C91_relay_partial`, `Monitor.C92_btp2_inside_block_stuck`, `Monitor.C92_btp2_boundary_partial`, `Monitor.C92_bridge`, `JavaMta.C93_only_current`, `JavaMpt.C94_unique`, `JavaMpt.C94_extension_partial`, `JavaMpt.C94_sound_partial`, `JavaMpt.C94_complete`, `JavaMpt.C94_longer_path_accepted`, `JavaMpt.C94_empty_value_accepted`, `JavaMpt.C94_embedded_crash`, `JavaMpt.C94_absent_partial`, `JavaIconBmv.C96_null`, `Ncs.C99_accepted_pays`, `TokenBsh.C102_held_partial`, `TokenBsh.C102_anyone_sets_balance`, `TokenBsh.C102_negative_accepted`, `TokenBsh.C103_answer`, `TokenBsh.C103_error_partial`, `TokenBsh.C104_gather`, `TokenBsh.C104_error_refused`, `TokenBsh.C105_only_requests_pay`, `TokenBsh.C106_change`, `FeeAgg.C108_withdrawal_once`, `FeeAgg.C109_price`, `FeeAgg.C110_ends_partial`, `FeeAgg.C110_stuck_without_tokens`, `FeeAgg.C110_empty_auction_stuck`, `FeeAgg.C111_deposit`, `FeeAgg.C111_end_partial`, `PyDb.C112_single_short_key`, `PyRlp.C115_long_unreadable`, `PyBase64.C116_roundtrip`, `PyBase64.C116_url_roundtrip`, `PyBase64.C116_decode_trailing`, `PyAddr.C117_net`, `PyAddr.C117_text_injective`, `PyAddr.C117_replace`, `PyMta.C118_cache`, `PyMpt.C119_unique`, `PyMpt.C119_embedded_followed`, `PyBmv.C120_next_iff`, `PyBmv.C120_height_codes`, `PyBmv.C121_consecutive`, `PyBmv.C121_foreign_refused`, `PyBmv.C121_unique`, `PyBmc.C123_open`, `PyBmc.C123_allowed`, `PyBmc.C125_credited`, `PyToken.C130_unlist`, `SolRelay.C133_typed`, `SolRelay.C133_history`, `SolRelay.C133_go_update`, `EndToEnd.C135_counted`, `EndToEnd.C135_relays_only`, `SolText.C136_ascii`, `SolText.C137_split`, `SolText.C137_btp_address`, `SolText.C137_btp_sound`, `SolText.C137_hex`, `SolText.C137_hex_injective`, `SolText.C137_indexOf`, `SolText.C138_parse_reverts`, `SolBmc.C140_evm_item`, `SolBmc.C140_evm_item_fails`, `SolBmc.C140_evm_handled_partial`, `SolBmc.C140_evm_sent`, `SolBmc.C140_evm_never_passed`, `SolBmc.C140_evm_poison`, `SolBmc.C140_evm_drop`, `EndToEnd.C140_evm_call_reverts`, `JavaBmc.C140_icon_handled`, `JavaBmc.C140_icon_sent`, `DApp.C141_abi_reads`, `EvmToIcon.C142_verified`, `EvmToIcon.C142_progress`, `EvmToIcon.C142_height_raised`, `EvmToIcon.C142_destination_ignored`, `IconToIcon.C143_relays_only`, `IconToIcon.C144_java_apart`, `PyCpf.C145_cap`, `PyCpf.C145_cap_always_partial`, `PyCpf.C145_accepts`, `PyCpf.C145_books`, `PyCpf.C145_permission`, `PyCpf.C145_page`, `PyMulti.C146_supply`, `PyMulti.C146_balances`, `PyMulti.C146_once`, `PyMulti.C146_permission`, `PyMulti.C146_owner_only`, `PyMulti.C146_batch`, `PyMulti.Irc2.C146_irc2`, `PyMulti.Irc2.C146_irc2_permission`, `PyMulti.C146_accepts`, `PyMulti.Irc2.C146_irc2_moves`, `PyMulti.Irc2.C146_irc2_installs`, `PyMulti.C147_int_partial`, `PyMulti.C147_log_wrong`, `PyCpf.Ref.C148_known`, `PyCpf.Ref.C148_value`, `PyCpf.Ref.C148_pair`, `JavaUtil.C150_tokenize_text`, `JavaUtil.C150_validators`, `JavaUtil.C150_name`, `JavaUtil.C150_hex_any`, `JavaUtil.C150_sort`, `JavaUtil.C150_arrays`, `SolMem.C151_address_false`, `SolMem.C151_itemLength`, `SolMem.C151_payloadOffset`, `SolMem.C151_item`, `SolProof.C152_push`, `SolProof.C152_pop`, `SolProof.C152_calculate`, `JavaObj.C153_receipt_false`, `RlpObj.C154_same_partial`, `RlpObj.C154_skip_raw`, `RlpObj.C154_skip_only`, `RlpObj.C154_skip_false`, `RlpObj.C154_steps`, `RlpObj.C154_any_calls`, `RlpObj.C154_late_false`, `RelayConfig.place_clean`, `RelayConfig.place_abs`, `RelayConfig.place_dir`, `RelayConfig.C155_round`, `RelayConfig.C155_start`, `RelayConfig.C155_start_file`, `RelayConfig.C155_save_names`, `RelayConfig.C155_save_partial`, `RelayConfig.C155_save_moved`, `RelayConfig.C155_save_empty`, `MixNet.Step.moves`, `XMix.Wires.step`, `MixNet.MReach.reach`, `XMix.given_numbered`, `SolRoutes.Net.C166_triangle_witness`, `RelayLog.C170_ipv6`, `RelayLog.C170_package`, `CliOptions.C171_raw`, `MixNet.C174_center_answers`, `MixNet.C174_center_gives_up`, `MixNet.C174_not_handed_over`, `HttpStream.C175_seen_partial`, `HttpStream.C175_in_order_partial`, `HttpStream.C175_end_after_all`, `HttpStream.C175_goroutine_stays`, `HttpStream.C175_comes_to_an_end`, `Ncs.C177_fees_change`, `Ncs.C177_no_fee_without_success`, `Zip.C179_exact_partial`, `Zip.C179_whole_partial`, `Zip.C179_distinct`, `Zip.C179_fails_exactly_partial`, `Zip.C179_link_false`, `Zip.C179_empty_lost`, `DebugBsh.C180_numbers`, `DebugBsh.C180_for_ever`, `HttpDo.C181_success`, `HttpDo.C181_unreadable`, `HttpDo.C181_left_open`
* none: `Serialize.C25_not_injective`, `Link.C31_remove_partial`, `Errors.C35_bmv_names`, `Errors.C35_bmc_names_witness`, `Errors.C35_of_other`, `BmvBridge.C39_witness`, `BmvBridge.C40_foreign_event_blocks`, `JavaOwners.C56_java_twice_witness`, `SolRlp.C59_length_255_witness`, `JavaBmc.C72_java_codes_witness`, `JavaBmc.C72_java_own`, `Sender.C85_status_partial`, `FeeAgg.C107_empty_deposits_oversell`, `FeeAgg.C107_two_names_oversell`, `FeeAgg.C108_refund_from_deposit`, `FeeAgg.C110_over_not_ended`, `FeeAgg.C110_empty_auction_blocks`, `FeeAgg.C111_over_at_once`, `FeeAgg.C111_set_duration`, `PyBmc.C123_origin`, `PyMulti.C147_int_wrong`, `PyCpf.Ref.C148_older_wins`, `JavaUtil.C150_empty_name`, `JavaObj.C153_unstable`, `JavaObj.C153_injective`, `MixNet.tr_emb`, `RelayLog.C170_module_level`, `DebugBsh.C180_icon_swapped`, `DebugBsh.C180_icon_never`, `DebugBsh.C180_icon_raw`, `DebugBsh.C180_icon_notes`, `DebugBsh.C180_evm_sends`, `DebugBsh.C180_first_number`, `DebugBsh.C180_evm_answers`
* propext: `Serialize.C25_leading_empty_lost`, `Address.C27_equal`, `Address.C27_no_prefix`, `LayerDb.C28_map_empty_key`, `LayerDb.C28_level_shared_slot`, `LayerDb.C28_nil_value`, `LayerDb.C29_map`, `Link.C30_result_never_returns`, `Link.C30_receive_unaffected_partial`, `Link.C31_remove_unknown`, `Link.C31_clear_first`, `Link.C31_clear_shared`, `Link.C31_clear_status`, `Errors.C35_code_outermost`, `Errors.C35_code_panics`, `Errors.C35_wraps_keep_code`, `Errors.C35_withCode`, `Errors.C35_wrapc`, `Errors.C35_is`, `Errors.C35_revert_code`, `Errors.C35_equals`, `Errors.C35_bmc_names_partial`, `Wallet.C36_rs`, `Wallet.C36_vrs_panics`, `Wallet.C36_wallet_sign`, `Sender.C38_relay_in_order`, `SolBmc.Demo.faithful`, `SolBmc.Demo.C41_reentrance_witness`, `SolBmc.Demo.C44_value_lost_witness`, `SolBmc.Demo.C45_spoofed_response_witness`, `JavaOwners.C56_java_owners`, `Monitor.C60_delivered`, `Monitor.C60_start_ahead`, `JavaBmc.C72_java_codes_partial`, `XCall.C78_service`, `Link.C81_two_updates_fail`, `Link.C81_two_updates_panic`, `Link.C81_build_two_fails`, `Link.C83_getHeader_spins`, `Link.C83_getHeader_partial`, `Sender.C85_failed_status_crashes`, `Sender.C86_evm_replay_panics`, `Monitor.C90_ethbr_bad_log_panics`, `Monitor.C90_bridge_partial`, `JavaIconBmv.C96_single_partial`, `JavaIconBmv.C96_lost`, `Ncs.C99_twice_loses`, `Ncs.C100_answer_from_any_network`, `Ncs.C100_foreign_answer_refunds`, `Ncs.C101_unknown_reply_settles_nothing`, `Ncs.C101_unknown_reply_locks`, `TokenBsh.C102_stranger_takes_all`, `TokenBsh.C102_negative_takes_all`, `TokenBsh.C103_error_refused`, `TokenBsh.C103_any_network`, `TokenBsh.C103_error_keeps_locked`, `TokenBsh.C104_first_asset_alone`, `TokenBsh.C104_fees_lost_or_doubled`, `TokenBsh.C106_deployer`, `TokenBsh.C106_strangers`, `TokenBsh.C106_count_wrong`, `PyRlp.C115_not_canonical`, `PyRlp.C115_missing_fields`, `PyBase64.C116_not_canonical`, `PyAddr.C117_valid`, `PyMta.C118_only_current`, `PyBmc.C127_resolves_to_link`, `PyBmc.C127_unreachable_code`, `PyBmc.C127_bad_reachable`, `SolRelay.C133_memory_witness`, `IntText.C134_meaning_witness`, `SolText.C136_never_valid_witness`, `SolText.C137_compare`, `SolText.C137_lower`, `DApp.C141_other_networks`, `DApp.C141_checks`, `EvmToIcon.C142_height_blocks`, `PyCpf.C145_lowered`, `PyCpf.C145_negative_budget`, `PyMulti.C147_same_bytes`, `PyCpf.Ref.C148_usd`, `HexJson.C149_exponent`, `HexJson.C149_string`, `JavaUtil.C150_tokenize`, `JavaUtil.C150_hex_prefix`, `JavaUtil.C150_camel`, `JavaObj.C153_result_null`, `RlpObj.C154_calls`, `SolNet.Demo.networks`, `SolNet.Demo.C156_drop_false`, `SolNet.Demo.C156_reentrant_false`, `MixNet.ledger_books`, `MixNet.Money.networks`, `SolRoutes.Net.sparse`, `CliOptions.C171_bracket_lost`, `CliOptions.C171_no_value`, `WsMonitor.C173_reused_address_false`, `WsMonitor.C173_late_close_false`, `WsMonitor.C173_closing_reported`, `Ncs.C174_lost_answer_false`, `Ncs.C174_tokens_without_coins_false`, `Ncs.C174_lost_error_false`, `HttpStream.C175_returned_is_final`, `HttpStream.C175_ends`, `HttpStream.C175_ends_only`, `HttpStream.C175_overwritten_false`, `HttpStream.C175_leftover_false`, `JsonRpc.C178_success`, `JsonRpc.C178_panics`, `JsonRpc.C178_nil_error`, `JsonRpc.C178_nil_error_kills`, `JsonRpc.C178_errors_handed_on`, `JsonRpc.C178_http_error`, `JsonRpc.C178_unreadable`, `JsonRpc.C178_lost`, `JsonRpc.C178_value_kept`, `JsonRpc.C178_sent`, `JsonRpc.C178_any_id`, `JsonRpc.C178_no_result`, `Zip.C179_excluded`, `Zip.C179_fails`, `Zip.C179_not_a_directory`, `Zip.C179_cut_false`, `Zip.C179_link_to_directory`, `HttpDo.C181_result`, `HttpDo.C181_kept`, `HttpDo.C181_server_errors`, `HttpDo.C181_sent`
