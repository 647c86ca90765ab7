{"id": "C01", "title": "int64 byte codec round trip and minimality", "statement": "BytesToInt64(Int64ToBytes(v)) = v for every int64; the produced byte string has 1..8 bytes and is the unique shortest non-empty big-endian two's complement form of v; BytesToInt64 of any byte string is its two's complement value reduced to 64 bits.", "quantifier": "every int64 v, every byte string b", "why_tests_cant": "2^64 values and all byte strings; tests sample a handful", "anchors": ["common/intconv/bytes.go: Int64ToBytes, BytesToInt64"]}
{"id": "C02", "title": "uint64 byte codec round trip and minimality", "statement": "BytesToUint64(Uint64ToBytes(v)) = v for every uint64; the encoding is the shortest two's complement form of v (1..9 bytes, top bit clear); BytesToUint64 of any byte string is its sign-extended value modulo 2^64.", "quantifier": "every uint64 v", "why_tests_cant": "2^64 values; boundary 0x80.. needs the 9-byte form", "anchors": ["common/intconv/bytes.go: Uint64ToBytes, BytesToUint64"]}
{"id": "C03", "title": "size codec round trip", "statement": "SizeToBytes yields the shortest big-endian form (one zero byte for zero), never more than 8 bytes, and BytesToSize inverts it for every 64-bit size; BytesToSize of any byte string is its value modulo 2^64.", "quantifier": "every uint64 v, every byte string", "why_tests_cant": "all magnitudes 0..2^63-1", "anchors": ["common/intconv/bytes.go: SizeToBytes, BytesToSize"]}
{"id": "C04", "title": "big integer byte codec is a bijection onto minimal strings", "statement": "BigIntSetBytes(BigIntToBytes(v)) = v for every integer; BigIntToBytes is injective; and a byte string decodes to v and is minimal iff it equals BigIntToBytes(v).", "quantifier": "every integer v (unbounded), every byte string", "why_tests_cant": "unbounded integers of either sign", "anchors": ["common/intconv/bytes.go: BigIntToBytes, BigIntSetBytes"]}
{"id": "C05", "title": "text form of integers round trips", "statement": "ParseBigInt(FormatBigInt(v)) = v for every integer; ParseInt(FormatInt(v),64) = v for every int64 including the minimum; ParseUint(FormatUint(v),64)=v.", "quantifier": "every integer / int64 / uint64", "why_tests_cant": "unbounded domain, sign and minimum-value corner", "anchors": ["common/intconv/string.go: FormatBigInt, ParseBigInt, FormatInt, ParseInt, FormatUint, ParseUint"]}
{"id": "C06", "title": "RLP codec round trip", "statement": "Decoding the RLP encoding of a value with the same type gives the value back and consumes exactly the encoded bytes, for booleans, integers, byte strings, strings, lists, arrays, structs, pointers and nil byte strings/lists of any depth and size, for types whose pointers do not point to pointers or slices; for all other types the value comes back up to identification of the nested nils. The bytes written are the RLP wire format.", "quantifier": "every value of every supported type descriptor, every trailing byte string", "why_tests_cant": "nested values of unbounded depth and size (length-prefix boundaries 55/56, 255/256, ...)", "anchors": ["common/codec/rlp.go", "common/codec/codec.go"]}
{"id": "C07", "title": "RLP encodings are self-delimiting", "statement": "No encoding of one item is a proper prefix of another; a stream of encoded items decodes to exactly that sequence; the encoding is injective.", "quantifier": "every pair / sequence of items", "why_tests_cant": "all pairs of unbounded items", "anchors": ["common/codec/rlp.go: rlpWriter, rlpReader"]}
{"id": "C08", "title": "truncated RLP input is rejected", "statement": "A strict prefix of a valid encoding never decodes successfully.", "quantifier": "every item, every strict prefix", "why_tests_cant": "every cut point of every encoding", "anchors": ["common/codec/rlp.go: readMore, ReadList, skipN; common/codec/codec.go"]}
{"id": "C09", "title": "RLP decoding accepts one encoding per value", "statement": "If a byte string decodes to a value, it is the byte string the encoder produces (canonical decoding).", "quantifier": "every byte string", "why_tests_cant": "all byte strings", "anchors": ["common/codec/rlp.go: readSize, ReadBytes"]}
{"id": "C10", "title": "RLP decoding never panics", "statement": "For every input byte string, decoding ends with a value or an error.", "quantifier": "every byte string", "why_tests_cant": "all byte strings including 8-byte length headers", "anchors": ["common/codec/rlp.go: readSize, readMore, ReadBytes"]}
{"id": "C11", "title": "incremental and bulk Merkle tree agree", "statement": "Adding leaves one at a time gives the same root, leaf count and proofs as building the tree from the whole list.", "quantifier": "every list of leaves", "why_tests_cant": "every list length; tests stop at 7", "anchors": ["common/mbt/tree.go: NewMerkleBinaryTree, Add, lazyAdd"]}
{"id": "C12", "title": "single-leaf path proof", "statement": "For every tree and every valid leaf number, recomputing the root along Path(num) from the leaf gives the tree root; out-of-range numbers are rejected.", "quantifier": "every leaf list, every leaf number", "why_tests_cant": "all sizes and positions", "anchors": ["common/mbt/path.go", "common/mbt/tree.go: Path"]}
{"id": "C13", "title": "range proof completeness", "statement": "For every tree and 1 <= begin <= end <= n, the proof built for [begin,end] verifies and yields the tree root, begin-1 and n.", "quantifier": "every leaf list, every range", "why_tests_cant": "all sizes x ranges", "anchors": ["common/mbt/tree.go: Proof", "common/mbt/proof.go: Root"]}
{"id": "C14", "title": "range proof soundness", "statement": "If a proof verifies to the root of an honest tree of n leaves with total n, its contents are exactly the leaves at the reported offset, unless a hash collision is exhibited.", "quantifier": "every proof (attacker chosen), every honest leaf list", "why_tests_cant": "adversarial search space is unbounded", "anchors": ["common/mbt/proof.go: Root", "common/mbt/tree.go: verify"]}
{"id": "C15", "title": "the on-chain proof verifiers agree with the relay", "statement": "Every range proof the relay produces for a non-empty range is accepted by the Java and the Solidity message proof code, which computes the same root, offset and total.", "quantifier": "every leaf list, every range, both contract implementations", "why_tests_cant": "three implementations x all sizes", "anchors": ["javascore/bmv/btpblock/src/main/java/foundation/icon/btp/bmv/btpblock/MessageProof.java", "javascore/bmv/btpblock/src/main/java/foundation/icon/btp/bmv/btpblock/Node.java", "solidity/bmv/contracts/libraries/MessageProofLib.sol: calculate"]}
{"id": "C16", "title": "Merkle accumulator structure", "statement": "After any sequence of AddHash/AddData the accumulator holds one perfect-tree root per one-bit of the length, each the hash of the corresponding consecutive block of leaves, and Len equals the number of additions.", "quantifier": "every sequence of additions", "why_tests_cant": "every length and bit pattern", "anchors": ["common/mta/accumulator.go: AddNode, AddData"]}
{"id": "C17", "title": "accumulator witness round trip", "statement": "For every accumulator of n leaves and every 0 <= i < n, WitnessFor(i) exists and Verify(witness, leaf i) succeeds with the accumulator; the witness returned by AddHash verifies the new leaf.", "quantifier": "every leaf sequence, every index", "why_tests_cant": "all lengths x indices", "anchors": ["common/mta/accumulator.go: WitnessFor, Verify, AddHash"]}
{"id": "C18", "title": "accumulator witness soundness", "statement": "If Verify accepts (witness, hash) at height i, then hash is the leaf at i or a hash collision is exhibited.", "quantifier": "every witness (attacker chosen), every history", "why_tests_cant": "adversarial", "anchors": ["common/mta/accumulator.go: Verify, verify"]}
{"id": "C19", "title": "witness for an older accumulator length", "statement": "WitnessForWithAccLength(i, m) of an accumulator with n >= m leaves equals the witness the accumulator had when it held m leaves, and verifies against it.", "quantifier": "every history, every i < m <= n", "why_tests_cant": "all pairs of lengths", "anchors": ["common/mta/accumulator.go: WitnessForWithAccLength, GetDepthByHeightAndAccLength"]}
{"id": "C20", "title": "verification of witnesses from another accumulator length", "statement": "VerifyWithAccLength accepts the witness of leaf i taken from an accumulator of any other length m > i (older or newer) for the same leaf sequence.", "quantifier": "every leaf sequence, i < min(n,m)", "why_tests_cant": "all pairs of lengths; test uses one", "anchors": ["common/mta/accumulator.go: VerifyWithAccLength"]}
{"id": "C21", "title": "witness wire form round trip", "statement": "HashesToWitness(WitnessesToHashes(w), i) restores the witness directions, for every witness the accumulator produces.", "quantifier": "every history, every index", "why_tests_cant": "all lengths x indices", "anchors": ["common/mta/accumulator.go: WitnessesToHashes, HashesToWitness"]}
{"id": "C22", "title": "accumulator persistence is crash safe", "statement": "If the process dies after any prefix of the database writes of Flush, Recover restores either the previously flushed accumulator or the new one, and every witness it then gives verifies.", "quantifier": "every history of adds/flushes, every crash point", "why_tests_cant": "every write prefix", "anchors": ["common/mta/accumulator.go: Flush, Recover"]}
{"id": "C23", "title": "extended accumulator maps heights by its offset", "statement": "For every offset and sequence, WitnessForAt(h, at, offset) answers as the plain accumulator at h-offset; heights below the offset are rejected; Recover refuses a stored accumulator with another offset.", "quantifier": "every offset, history and height", "why_tests_cant": "all offsets x heights", "anchors": ["common/mta/extaccumulator.go"]}
{"id": "C24", "title": "fragmented relay messages are reassembled exactly", "statement": "A message sent by the relay in fragments is handed to the destination message handler exactly once and byte for byte, whatever its size, even if an earlier fragmented send was abandoned at any point.", "quantifier": "every message, every positive fragment size, every abandoned earlier transfer", "why_tests_cant": "all sizes incl. exact multiples; all crash points", "anchors": ["chain/icon/sender.go: Relay, sendFragment", "javascore/bmc/src/main/java/foundation/icon/btp/bmc/BTPMessageCenter.java: handleFragment"]}
{"id": "C25", "title": "signed transaction text determines the transaction", "statement": "Two transactions with different parameters never serialize to the same byte string to be signed.", "quantifier": "every pair of parameter trees", "why_tests_cant": "all pairs of trees", "anchors": ["chain/icon/client/serialize.go"]}
{"id": "C26", "title": "BTP address composition and parsing", "statement": "For network and account without '/' (account non-empty) the composed address validates, and Protocol, NetworkAddress, BlockChain, NetworkID, Account return its parts; the Solidity parser returns the same network and account.", "quantifier": "every pair of strings", "why_tests_cant": "all strings", "anchors": ["common/types/btpaddress.go", "solidity/bmc/contracts/libraries/BTPAddress.sol"]}
{"id": "C27", "title": "address text and byte forms round trip", "statement": "String/SetString and Bytes/SetBytes are mutually inverse on addresses, and the result of SetTypeAndID/SetString depends only on the arguments, not on earlier contents.", "quantifier": "every address, every earlier content", "why_tests_cant": "all ids x stale states", "anchors": ["common/address.go"]}
{"id": "C28", "title": "layered database is a transparent overlay", "statement": "Any sequence of Get/Has/Set/Delete through the layer returns what a single map would; before Flush(true) the underlying store is untouched; Flush(true) makes it equal to the view; Flush(false) discards.", "quantifier": "every operation sequence over every bucket", "why_tests_cant": "all histories", "anchors": ["common/db/layer_db.go"]}
{"id": "C29", "title": "database buckets are isolated", "statement": "A write in one bucket never changes what another bucket returns.", "quantifier": "every pair of bucket ids and keys", "why_tests_cant": "all ids x keys", "anchors": ["common/db/go_level_db.go: internalKey", "common/db/map_db.go", "common/db/bucket.go"]}
{"id": "C30", "title": "the relay loop survives any number of relay results", "statement": "After handling any finite sequence of relay results the link can still take its queue lock (no goroutine blocks forever on its own lock).", "quantifier": "every sequence of results", "why_tests_cant": "every schedule/history", "anchors": ["common/link/link.go: result, removeRelayMessage"]}
{"id": "C31", "title": "relay queue bookkeeping", "statement": "A finished relay message leaves the pending queue, all others stay, in order.", "quantifier": "every queue and every id", "why_tests_cant": "all queues", "anchors": ["common/link/link.go: removeRelayMessage, searchRelayMessage, clearRelayMessage, updateRelayMessage"]}
{"id": "C32", "title": "bridge receiver delivers every message once", "statement": "The proof the bridge receiver builds for a block contains exactly the messages of that block not yet delivered, in order.", "quantifier": "every block content and delivered sequence number", "why_tests_cant": "all block sizes x offsets", "anchors": ["chain/icon/bridge/bridge.go: BuildMessageProof, newReceiveStatus"]}
{"id": "C33", "title": "btp2 receiver proof parts tile the block", "statement": "Repeated message proofs for one block cover its messages exactly once in order, and the reported last sequence number is the true one, for every size limit.", "quantifier": "every block, every start sequence, every size limit", "why_tests_cant": "all splits", "anchors": ["chain/icon/btp2/btp2.go: BuildMessageProof"]}
{"id": "C34", "title": "EVM bridge receiver handles any number of messages per block", "statement": "BuildMessageProof terminates without a panic and returns the undelivered events of the block, whatever the number of events in it.", "quantifier": "every block content", "why_tests_cant": "all event layouts", "anchors": ["chain/ethbr/receiver.go: BuildMessageProof, GetReceiveHeightForSequence"]}
{"id": "C35", "title": "revert codes survive wrapping", "statement": "CodeOf(err) is the code of the outermost error in the wrap chain that has one, and adding messages or stacks does not change it; the code of a contract exception reaches the relay unchanged (failure f in 32..99 is code f-32), and its class and type follow the documented ranges.", "quantifier": "every wrap chain, every code", "why_tests_cant": "all chains and codes", "anchors": ["common/errors/errors.go", "chain/icon/client/error.go: NewRevertError", "javascore/lib/src/main/java/foundation/icon/btp/lib/BTPException.java"]}
{"id": "C36", "title": "signature serialisation round trip", "statement": "Parsing a 65-byte RSV signature and serialising it as RSV returns the same bytes; VRS likewise.", "quantifier": "every 65-byte string", "why_tests_cant": "2^520 inputs", "anchors": ["common/crypto/signature.go"]}
{"id": "C37", "title": "keystore encryption round trip", "statement": "Decrypting an encrypted key with the same password returns the key; with any password whose derived MAC differs it is an error; the address recorded is that of the key.", "quantifier": "every key, password, salt, iv; every KDF/cipher with x xor (x xor k) = k", "why_tests_cant": "all keys/passwords", "anchors": ["common/wallet/keystore.go"]}
{"id": "C38", "title": "transaction send loop", "statement": "The relay's send loop re-sends on queue overflow, treats a duplicate as success, re-signs after expiry, and never reports success for a transaction no node accepted.", "quantifier": "every sequence of node replies", "why_tests_cant": "every reply history", "anchors": ["chain/icon/sender.go: sendTransaction"]}
{"id": "C39", "title": "relay verifier returns the new messages in order (Java bridge)", "statement": "handleRelayMessage of the Java bridge verifier returns, in order, exactly the events whose sequence numbers continue the link's sequence.", "quantifier": "every relay message, every expected sequence", "why_tests_cant": "all message batches; tests use single messages", "anchors": ["javascore/bmv/bridge/src/main/java/foundation/icon/btp/bmv/bridge/BTPMessageVerifier.java: handleRelayMessage"]}
{"id": "C40", "title": "relay verifier returns the new messages in order (Solidity bridge)", "statement": "handleRelayMessage of the Solidity bridge verifier returns, in order, exactly the events addressed to this BMC whose sequence numbers continue the link's sequence, or reverts; its height never decreases.", "quantifier": "every relay message, every expected sequence", "why_tests_cant": "all batches", "anchors": ["solidity/bmv-bridge/contracts/BMV.sol: handleRelayMessage"]}
{"id": "C41", "title": "exactly-once in-order delivery per link", "statement": "Over any history of relay calls by any callers, the sequence of source messages a BMC dispatches for a link is a prefix-contiguous run without gap or repetition, and the link's rx sequence equals their number.", "quantifier": "every history of relay/drop calls, every relay payload", "why_tests_cant": "all histories", "anchors": ["javascore/bmc/src/main/java/foundation/icon/btp/bmc/BTPMessageCenter.java: handleRelayMessage, dropMessage", "solidity/bmc/contracts/BMCPeriphery.sol: handleRelayMessage, dropMessage"]}
{"id": "C42", "title": "outgoing messages are numbered consecutively", "statement": "The tx sequence numbers of the messages emitted for a link are 1,2,3,... without gap or repetition and getStatus reports the last.", "quantifier": "every history of calls", "why_tests_cant": "all histories", "anchors": ["solidity/bmc/contracts/BMCPeriphery.sol: _sendMessage", "javascore/bmc/src/main/java/foundation/icon/btp/bmc/BTPMessageCenter.java: sendMessage"]}
{"id": "C43", "title": "only registered relays deliver", "statement": "No state change on a link results from a relay call whose caller is not a registered relay of that link; after removeLink no earlier relay is registered for a link of that name added again.", "quantifier": "every history", "why_tests_cant": "all histories of add/remove", "anchors": ["javascore/bmc/src/main/java/foundation/icon/btp/bmc/BTPMessageCenter.java: removeLink, addRelay, removeRelay, getRelays", "solidity/bmc/contracts/BMCManagement.sol"]}
{"id": "C44", "title": "fees are conserved", "statement": "For every processed message: fee list sum before = reward credited to the relay + fee list sum carried on or stored + amount credited to the BMC.", "quantifier": "every message, every fee list, every outcome", "why_tests_cant": "all outcomes x fee lists", "anchors": ["solidity/bmc/contracts/BMCService.sol: handleFee, handleErrorFee", "javascore/bmc/src/main/java/foundation/icon/btp/bmc/BTPMessageCenter.java: accumulateFee, collectRemainFee, sendError"]}
{"id": "C45", "title": "claimed rewards are never paid twice", "statement": "For every claim, the amount is credited at the destination or returned at the origin, never both.", "quantifier": "every claim, every outcome of the response leg", "why_tests_cant": "every failure point", "anchors": ["javascore/bmc/src/main/java/foundation/icon/btp/bmc/BTPMessageCenter.java: internalHandleBTPMessage, claimReward, handleResponse", "solidity/bmc/contracts/BMCService.sol"]}
{"id": "C46", "title": "enumerable dictionary is a map", "statement": "Any sequence of put/get/remove/containsKey on the enumerable dictionary behaves like a finite map, and keySet/values enumerate exactly its entries once.", "quantifier": "every operation sequence", "why_tests_cant": "all histories", "anchors": ["javascore/bmc/src/main/java/foundation/icon/score/data/EnumerableDictDB.java"]}
{"id": "C47", "title": "route resolution order (Java)", "statement": "resolveNext returns the direct link if one exists, else the link of a manual route, else the first link that reported the network reachable, else fails.", "quantifier": "every configuration history", "why_tests_cant": "all histories", "anchors": ["javascore/bmc/src/main/java/foundation/icon/btp/bmc/BTPMessageCenter.java: resolveNext"]}
{"id": "C48", "title": "link and route tables stay consistent (Solidity)", "statement": "After any history of addLink/removeLink/addRoute/removeRoute/reachability messages, a network with a direct link resolves to that link, the link list has no duplicates and links can be removed again.", "quantifier": "every configuration history", "why_tests_cant": "all histories", "anchors": ["solidity/bmc/contracts/BMCManagement.sol: addLink, _addRouteInfo, _removeRouteInfo"]}
{"id": "C49", "title": "block verification never skips or repeats messages (Java btpblock)", "statement": "Over any history of accepted relay messages the btpblock verifier releases the messages of the verified blocks in order, each exactly once (up to hash collision).", "quantifier": "every history of relay messages", "why_tests_cant": "adversarial", "anchors": ["javascore/bmv/btpblock/src/main/java/foundation/icon/btp/bmv/btpblock/BTPMessageVerifier.java"]}
{"id": "C50", "title": "block verification never skips or repeats messages (Solidity btpblock)", "statement": "Same for the Solidity verifier.", "quantifier": "every history of relay messages", "why_tests_cant": "adversarial", "anchors": ["solidity/bmv/contracts/BtpMessageVerifier.sol: handleRelayMessage"]}
{"id": "C51", "title": "network section path", "statement": "The network sections root computed from a section hash and a Merkle path is the root of the tree for every path depth, in both contract languages.", "quantifier": "every path length", "why_tests_cant": "all depths; tests use depth <= 1", "anchors": ["javascore/bmv/btpblock/src/main/java/foundation/icon/btp/bmv/btpblock/BlockHeader.java: getNetworkSectionsRoot", "solidity/bmv/contracts/libraries/MerkleTreeLib.sol: calculate"]}
{"id": "C52", "title": "validator quorum", "statement": "A block update is accepted only if more than two thirds of the validator set signed, each counted once, and only current validators count.", "quantifier": "every signature list, every validator set", "why_tests_cant": "adversarial", "anchors": ["javascore/bmv/btpblock/src/main/java/foundation/icon/btp/bmv/btpblock/BTPMessageVerifier.java: verifyProof", "solidity/bmv/contracts/BtpMessageVerifier.sol: checkBlockProof"]}
{"id": "C53", "title": "cross-chain call executed at most once", "statement": "For every received call request executeCall runs the target at most once; request ids are never reused.", "quantifier": "every history of service calls", "why_tests_cant": "all histories", "anchors": ["javascore/xcall/src/main/java/foundation/icon/btp/xcall/CallServiceImpl.java", "solidity/xcall/contracts/CallService.sol"]}
{"id": "C54", "title": "rollback only after failure, at most once", "statement": "executeRollback runs a rollback only for a call sent with rollback data for which a failure response or error arrived and no success after it, at most once.", "quantifier": "every history of service calls", "why_tests_cant": "all histories", "anchors": ["javascore/xcall/src/main/java/foundation/icon/btp/xcall/CallServiceImpl.java", "solidity/xcall/contracts/CallService.sol"]}
{"id": "C55", "title": "responses only from the called network", "statement": "A response that settles a call comes from the network the call was sent to.", "quantifier": "every history", "why_tests_cant": "adversarial", "anchors": ["javascore/xcall/src/main/java/foundation/icon/btp/xcall/CallServiceImpl.java: handleResponse", "solidity/xcall/contracts/CallService.sol: handleResponse"]}
{"id": "C56", "title": "contract ownership is never lost", "statement": "At every point of every history there is at least one owner, only owners change owners, and isOwner agrees with the owner list.", "quantifier": "every history", "why_tests_cant": "all histories", "anchors": ["solidity/bmc/contracts/BMCManagement.sol: addOwner, removeOwner", "javascore/lib/src/main/java/foundation/icon/btp/lib/OwnerManagerImpl.java"]}
{"id": "C57", "title": "Merkle Patricia proof object is hash linked", "statement": "A proof list accepted by NewMptProof is a chain in which every node's hash is referenced by the node before it; malformed lists give errors, not panics.", "quantifier": "every list of byte strings", "why_tests_cant": "all inputs", "anchors": ["common/mpt/mpt.go: NewMptProof"]}
{"id": "C58", "title": "IconOptions header round trip", "statement": "Parsing the header value produced from a set of options gives the same set.", "quantifier": "every option map with admissible keys and values", "why_tests_cant": "all maps", "anchors": ["chain/icon/client/client.go: IconOptions.ToHeaderValue, NewIconOptionsByHeader"]}
{"id": "C59", "title": "Solidity RLP is compatible with the relay's RLP", "statement": "For every BTP message, the Solidity decoder applied to the Solidity encoding returns it, and the encoding equals the relay codec's encoding of the same structure.", "quantifier": "every message", "why_tests_cant": "unbounded field contents", "anchors": ["solidity/bmc/contracts/libraries/RLPEncode.sol", "solidity/bmc/contracts/libraries/RLPDecode.sol", "solidity/bmc/contracts/libraries/RLPEncodeStruct.sol", "solidity/bmc/contracts/libraries/RLPDecodeStruct.sol"]}
{"id": "C60", "title": "block monitor catch-up delivers each height once", "statement": "When the EVM monitor starts at height h and the chain head is n, every height from h on is delivered exactly once in increasing order, through any number of head updates.", "quantifier": "every start height, every sequence of head numbers", "why_tests_cant": "all sequences", "anchors": ["chain/ethbr/client/client.go: MonitorBlock"]}
{"id": "C61", "title": "fixed-width text parsing never returns a value outside the width", "statement": "Whatever the text, if ParseInt(s, bits) or ParseUint(s, bits) succeeds the value lies in the range of that width, so the narrowing conversions done by the HexInt types never change it.", "quantifier": "every text, every width 1..64", "why_tests_cant": "The set of texts (prefixes, underscores, signs, fallback path) is unbounded.", "anchors": ["common/intconv/string.go: ParseInt, ParseUint", "common/hexint.go: UnmarshalJSON of HexInt16..HexUint64"]}
{"id": "C62", "title": "a number's text means the same for every integer type", "statement": "If a text parses both as a fixed-width integer and as an arbitrary-precision integer, both give the same number.", "quantifier": "every text, every width", "why_tests_cant": "Needs agreement of two parsers on every text.", "anchors": ["common/intconv/string.go: ParseInt, ParseBigInt"]}
{"id": "C63", "title": "nil is never confused with an empty value", "statement": "Reading a byte string, a list or a pointer yields nil only if the input starts with the two marker bytes f8 00 (and exactly those are consumed); the empty string, the empty list and every other zero-length form give an empty value or an error.", "quantifier": "every input byte string, every element type", "why_tests_cant": "all inputs, including non-canonical long headers", "anchors": ["common/codec/rlp.go: readBytes, readList", "common/codec/codec.go: decodeValue"]}
{"id": "C64", "title": "accepted texts of arbitrary-precision integers", "statement": "ParseBigInt accepts exactly an optional minus sign followed by hexadecimal digits (possibly none), or by 0x and at least one digit, and returns the number the digits denote.", "quantifier": "every text", "why_tests_cant": "all texts", "anchors": ["common/intconv/string.go: ParseBigInt, decodeHexNumber"]}
{"id": "C65", "title": "soundness of the ICON contract's message proof check", "statement": "If the btpblock verifier of the ICON contract accepts a message proof against the root and message count of a header, the messages it yields are the honest messages of that block at the reported offset, unless a hash collision is exhibited.", "quantifier": "every honest message list, every proof (left nodes, messages, right nodes)", "why_tests_cant": "all adversarial proofs", "anchors": ["javascore/bmv/btpblock/src/main/java/foundation/icon/btp/bmv/btpblock/MessageProof.java: proveMessage", "javascore/bmv/btpblock/src/main/java/foundation/icon/btp/bmv/btpblock/Node.java: add, ensureHash, verify"]}
{"id": "C66", "title": "soundness of the EVM contract's message proof check", "statement": "If the root and message count computed by the EVM contract from a message proof equal those of a block, the messages of the proof are the honest messages of that block that follow the messages covered by the left nodes, unless a hash collision is exhibited.", "quantifier": "every honest message list, every decoded proof", "why_tests_cant": "all adversarial proofs", "anchors": ["solidity/bmv/contracts/libraries/MessageProofLib.sol: calculate, concat, levelOf, toQueue"]}
{"id": "C67", "title": "accumulator node lookup", "statement": "GetNode(i) returns the node of leaf i for i below the length and an error at or above it, also after flushes, crashes and recovery.", "quantifier": "every history, every index", "why_tests_cant": "all lengths x indices x database states", "anchors": ["common/mta/accumulator.go: GetNode"]}
{"id": "C68", "title": "soundness of VerifyWithAccLength", "statement": "Whatever length the caller claims for the witness, VerifyWithAccLength accepts a 32-byte hash only if it is one of the leaves, or a hash collision is exhibited.", "quantifier": "every history, every witness, every claimed length", "why_tests_cant": "adversarial", "anchors": ["common/mta/accumulator.go: VerifyWithAccLength"]}
{"id": "C69", "title": "accumulator data is persisted", "statement": "After a complete Flush, the data of every leaf added with AddData is in the database under its hash, whatever partial flushes, crashes and recoveries happened.", "quantifier": "every history", "why_tests_cant": "every write prefix and history", "anchors": ["common/mta/accumulator.go: AddData, Flush"]}
{"id": "C70", "title": "service and verifier registries", "statement": "After any history of calls by anyone, the lists of services and verifiers name each registered one exactly once and nothing else, and a registered address changes only by removal by an owner.", "quantifier": "every history of calls, every key", "why_tests_cant": "all histories of add/remove in every order", "anchors": ["solidity/bmc/contracts/BMCManagement.sol: addService, removeService, addVerifier, removeVerifier", "solidity/bmc/contracts/libraries/Utils.sol: removeFromStrings"]}
{"id": "C71", "title": "message numbers on BTP networks (ICON)", "statement": "The k-th message the ICON BMC gives to a BTP network bound to a link has link number offset + k, where offset is the number stored when the network was bound; no network is bound to two links.", "quantifier": "every history of link and network configuration and of message sending, every nesting of service calls", "why_tests_cant": "all interleavings of rebinding, failures and sends", "anchors": ["javascore/bmc/src/main/java/foundation/icon/btp/bmc/BTPMessageCenter.java: addBTPLink, setBTPLinkNetworkId, setBTPLink, removeLink, sendMessage"]}
{"id": "C72", "title": "error responses carry the right code (ICON)", "statement": "The error response to a failed message says no-route exactly if no route was found, no-service exactly if the service is not registered, service-failure exactly if the service threw, unknown otherwise.", "quantifier": "every exception type and code", "why_tests_cant": "all exception codes of all services", "anchors": ["javascore/bmc/src/main/java/foundation/icon/btp/bmc/BTPMessageCenter.java: toResponseMessage", "javascore/lib/src/main/java/foundation/icon/btp/lib/BTPException.java"]}
{"id": "C73", "title": "an honest chain can be relayed (block verifiers)", "statement": "From a verifier in sync, the calls that relay the next honest signed blocks (update, then proofs of its messages) are accepted and release exactly their messages, for every number of networks, every sequence offset and every first block.", "quantifier": "every chain of blocks, every split of a block into proofs", "why_tests_cant": "all chains, offsets and splits; tests relay few blocks with offset 0", "anchors": ["javascore/bmv/btpblock/src/main/java/foundation/icon/btp/bmv/btpblock/BTPMessageVerifier.java: handleRelayMessage, handleBlockUpdateMessage, handleMessageProof", "solidity/bmv/contracts/BtpMessageVerifier.sol: handleRelayMessage"]}
{"id": "C74", "title": "validator handover", "statement": "A block update changes the validators only if its flag is set, and then only to the validators whose hash the current validators signed.", "quantifier": "every block update", "why_tests_cant": "adversarial", "anchors": ["javascore/bmv/btpblock/src/main/java/foundation/icon/btp/bmv/btpblock/BTPMessageVerifier.java: verifyProofContextData", "solidity/bmv/contracts/BtpMessageVerifier.sol: handleRelayMessage"]}
{"id": "C75", "title": "a signed decision commits to the section", "statement": "If the decision derived from an accepted header is one the validators made, the header carries one of the sections they decided on and their height, round and next validators (up to hash collision).", "quantifier": "every header, every list of networks", "why_tests_cant": "adversarial", "anchors": ["javascore/bmv/btpblock/src/main/java/foundation/icon/btp/bmv/btpblock/BTPMessageVerifier.java: handleBlockUpdateMessage", "javascore/bmv/btpblock/src/main/java/foundation/icon/btp/bmv/btpblock/BlockHeader.java", "solidity/bmv/contracts/libraries/BlockUpdateLib.sol"]}
{"id": "C76", "title": "cross-chain calls are atomic", "statement": "For services on any number of networks whose messages are each delivered at most once or given back with an error: if a caller is rolled back, its call did not and will not run to its end on any network; a call taken for successful did; every target runs what was sent to it, with the true sender.", "quantifier": "every number of networks, every interleaving, every behaviour of users and called contracts", "why_tests_cant": "all interleavings of several chains with re-entrant contracts", "anchors": ["javascore/xcall/src/main/java/foundation/icon/btp/xcall/CallServiceImpl.java", "solidity/xcall/contracts/CallService.sol"]}
{"id": "C77", "title": "the call service keeps no coins but fees", "statement": "In every history the coins received equal those passed to the message center, those paid to fee handlers and the balance; a sent call passes on at least the relay fee; a call paying both fees is sent.", "quantifier": "every history", "why_tests_cant": "all histories", "anchors": ["javascore/xcall/src/main/java/foundation/icon/btp/xcall/CallServiceImpl.java", "solidity/xcall/contracts/CallService.sol"]}
{"id": "C78", "title": "access control of the call service", "statement": "Only the owner sets the admin, only the admin the fee and its handler, only the message center delivers messages and errors, only for this service; also through re-entrant contracts.", "quantifier": "every history of calls by others", "why_tests_cant": "adversarial, nested calls", "anchors": ["javascore/xcall/src/main/java/foundation/icon/btp/xcall/CallServiceImpl.java", "solidity/xcall/contracts/CallService.sol"]}
{"id": "C79", "title": "calls and rollbacks can be executed", "statement": "Every request received can be executed and every enabled rollback can be run by anyone, whatever the called contract does.", "quantifier": "every state, every behaviour of the called contract", "why_tests_cant": "arbitrary contracts", "anchors": ["javascore/xcall/src/main/java/foundation/icon/btp/xcall/CallServiceImpl.java", "solidity/xcall/contracts/CallService.sol"]}
{"id": "C80", "title": "no item is lost between receiver and sender", "statement": "The items inside the relay messages handed to the sender, in order, followed by those still being collected, are exactly the items taken from the receiver, in order; every message is the encoding of its items.", "quantifier": "every receiver, every history of blocks, statuses and results, also with failing calls", "why_tests_cant": "all histories", "anchors": ["common/link/link.go"]}
{"id": "C81", "title": "several blocks or several parts may be pending", "statement": "Building relay messages succeeds when two or more block updates are pending, and when a block has to be sent in several parts.", "quantifier": "every state", "why_tests_cant": "depends on timing and sizes", "anchors": ["common/link/link.go", "chain/icon/btp2/btp2.go"]}
{"id": "C82", "title": "relay messages keep within the size limit", "statement": "The items of every relay message together are at most the configured limit.", "quantifier": "every history", "why_tests_cant": "all sizes and histories", "anchors": ["common/link/link.go", "chain/icon/btp2/btp2.go: BuildMessageProof"]}
{"id": "C83", "title": "the link does not wait for ever", "statement": "The loops that wait for a header, build proofs and check the status end.", "quantifier": "every state, every receiver", "why_tests_cant": "non-termination", "anchors": ["common/link/link.go"]}
{"id": "C84", "title": "the btp2 relay delivers every message once, in order", "statement": "For every sequence of blocks the relay sends the update and a valid proof of all messages of every block, in order, each message once, numbered consecutively.", "quantifier": "every sequence of blocks, every interleaving with destination statuses", "why_tests_cant": "all sequences and sizes", "anchors": ["common/link/link.go", "chain/icon/btp2/btp2.go"]}
{"id": "C85", "title": "a failed status query does not stop the relay", "statement": "When the sender cannot read the link status after a relay transaction, the link continues.", "quantifier": "every link state", "why_tests_cant": "depends on node failures", "anchors": ["chain/icon/sender.go: SendStatus", "chain/ethbr/sender.go: SendStatus", "common/link/link.go: clearRelayMessage, clearReceiveStatus"]}
{"id": "C86", "title": "failed relay transactions are reported to the link", "statement": "Every relay transaction that fails on the destination is reported to the link with its revert code, and nothing is reported that did not fail.", "quantifier": "every sequence of node replies, every failure code, every revert text", "why_tests_cant": "all replies and texts", "anchors": ["chain/icon/sender.go: GetResult, mapErrorWithTransactionResult, result", "chain/ethbr/sender.go: GetResult"]}
{"id": "C87", "title": "public keys parse to one form", "statement": "The compressed and the uncompressed encoding of a point parse to the same key, other lengths are refused, and a byte string that is no point is refused.", "quantifier": "every byte string", "why_tests_cant": "all byte strings", "anchors": ["common/crypto/key.go: ParsePublicKey, uncompToCompPublicKey"]}
{"id": "C88", "title": "encrypted messages are readable by the recipient", "statement": "What NewEncrypted makes for a public key is decrypted by the wallet of that key to the original message, for every kind of wallet and every encoding of the key, and the key material depends on the wallet.", "quantifier": "every wallet, key encoding, salt and message", "why_tests_cant": "all keys and messages", "anchors": ["common/wallet/encrypted.go: NewEncrypted, Decrypt", "common/wallet/wallet.go: ECDH", "common/wallet/wallet_evm.go: ECDH"]}
{"id": "C89", "title": "key stores of the relay are protected by the configured password", "statement": "If a configured secret file cannot be read the relay does not start; a key store that the relay generates opens with the configured password; an existing one is used only if it opens with it.", "quantifier": "every configuration and file system", "why_tests_cant": "all configurations", "anchors": ["cmd/relay/main.go: resolvePassword, EnsureWallet"]}
{"id": "C90", "title": "the receivers notice every message", "statement": "Every message for the destination in a block of the source chain from the start on becomes known to the receiver exactly once, in order and with its number, whatever requests to the node fail.", "quantifier": "every sequence of blocks and of failing requests", "why_tests_cant": "all sequences and failures", "anchors": ["chain/icon/btp2/btp2.go: monitorBTP2Block", "chain/icon/bridge/bridge.go: monitorBTP2Block", "chain/ethbr/receiver.go: Monitoring", "chain/icon/client/client.go: MonitorBTP"]}
{"id": "C91", "title": "a failure ends the relay or is retried", "statement": "If the monitor, the receiver, the sender or the result handler of a link fails for good, the link and the relay end with an error.", "quantifier": "every sequence of failures", "why_tests_cant": "all sequences of failures", "anchors": ["common/link/link.go: Start, receiverChannel, senderChannel", "cmd/relay/linkfatory.go: newLink, NewLink"]}
{"id": "C92", "title": "a restarted relay goes on where the destination stands", "statement": "A relay that starts when the destination has taken some messages, possibly part of a block, delivers the next message.", "quantifier": "every status of the destination", "why_tests_cant": "all statuses", "anchors": ["chain/icon/btp2/btp2.go: Monitoring, newMessageProof", "chain/icon/bridge/bridge.go: Monitoring"]}
{"id": "C93", "title": "the verifier contract's accumulator accepts only blocks it has added", "statement": "A block witness is accepted only for a hash that was added, at the height it was added at; witnesses made by the relay for the current or an older accumulator are accepted.", "quantifier": "every sequence of additions and every witness", "why_tests_cant": "all histories and all witnesses", "anchors": ["javascore/bmv/icon/src/main/java/foundation/icon/btp/bmv/icon/MerkleTreeAccumulator.java: add, verify"]}
{"id": "C94", "title": "the verifier contract's trie proofs are sound", "statement": "A value proved against the root of a trie for a key is the value of this key; the nodes on the path to a stored key prove it.", "quantifier": "every trie, key and list of nodes", "why_tests_cant": "all tries and all forged proofs", "anchors": ["javascore/bmv/icon/src/main/java/foundation/icon/btp/bmv/icon/MerklePatriciaTree.java: prove"]}
{"id": "C95", "title": "the ICON verifier contract accepts only a chain signed by two thirds", "statement": "In every history the blocks accepted form one chain from the first block on; each is signed by more than two thirds of the validators named by the block before it; two contracts can only diverge if more than a third of the validators of a block sign twice.", "quantifier": "every history of relay messages", "why_tests_cant": "all histories and all sets of votes", "anchors": ["javascore/bmv/icon/src/main/java/foundation/icon/btp/bmv/icon/BTPMessageVerifier.java: verifyBlockUpdates, verifyVotes"]}
{"id": "C96", "title": "the ICON verifier contract returns exactly the proved messages", "statement": "An accepted call returns all messages of the proved receipts of a verified block, in order and with the expected sequence numbers, and only the message center may call it.", "quantifier": "every history and every relay message", "why_tests_cant": "all histories and all relay messages", "anchors": ["javascore/bmv/icon/src/main/java/foundation/icon/btp/bmv/icon/BTPMessageVerifier.java: handleRelayMessage, verifyBlockProof, proveReceiptProof, checkAccessible"]}
{"id": "C97", "title": "the coin service's ledger matches what it holds", "statement": "In every history what is locked for an account is what its pending transfers add up to; the coins the service holds are what was received less what was paid out; the tokens it holds are what is locked, refundable or taken as fee; a refund of tokens can always be taken.", "quantifier": "every history of calls, all accounts and coins", "why_tests_cant": "all histories and all amounts", "anchors": ["javascore/nativecoin/src/main/java/foundation/icon/btp/nativecoin/NativeCoinService.java: transferNativeCoin, transfer, transferBatch, sendRequest, reclaim, handleRequest, handleResponse"]}
{"id": "C98", "title": "coins sent to the other chain stay backed", "statement": "For two chains joined by message centers: the coins held on a chain cover its locked and refundable amounts, its fees, and all tokens of this coin on the other chain, also those on the way; requests to give them back and refunds are never refused for lack of coins.", "quantifier": "every interleaving of calls and deliveries on two chains", "why_tests_cant": "all interleavings of two chains", "anchors": ["javascore/nativecoin/src/main/java/foundation/icon/btp/nativecoin/NativeCoinService.java: transferNativeCoin, transfer, transferBatch, handleRequest, handleResponse, reclaim"]}
{"id": "C99", "title": "a transfer is delivered in full or refunded in full", "statement": "Each pending transfer has exactly one packet on the way, its request or its answer; what was paid out on the other chain is what the sender settled; when all packets have arrived nothing is locked.", "quantifier": "every interleaving of calls and deliveries on two chains", "why_tests_cant": "all interleavings of two chains", "anchors": ["javascore/nativecoin/src/main/java/foundation/icon/btp/nativecoin/NativeCoinService.java: sendRequest, handleRequest, handleResponse, handleBTPMessage, handleBTPError"]}
{"id": "C100", "title": "a transfer is answered only by the network it was sent to", "statement": "A pending transfer is settled or refunded only by an answer of the network of its receiver, passed on by the message center.", "quantifier": "every history, caller, network and number", "why_tests_cant": "all callers and networks", "anchors": ["javascore/nativecoin/src/main/java/foundation/icon/btp/nativecoin/NativeCoinService.java: handleBTPMessage, handleBTPError, handleResponse"]}
{"id": "C101", "title": "every answer ends its transfer, fees can be collected", "statement": "Each answer to a pending transfer is carried out and closes it, with the amounts and fees booked exactly; fees taken can be withdrawn.", "quantifier": "every history and answer", "why_tests_cant": "all histories and answers", "anchors": ["javascore/nativecoin/src/main/java/foundation/icon/btp/nativecoin/NativeCoinService.java: handleBTPMessage, handleResponse, responseSuccess, responseError, addFee"]}
{"id": "C102", "title": "the token service's ledger matches the tokens it holds", "statement": "In every history the tokens of a contract that the service holds are what users have, what was taken as fees, and what was promised to other networks less what was paid for them; nobody has less than nothing; what is locked is what pending transfers take.", "quantifier": "every history of calls, all users, names and amounts", "why_tests_cant": "all histories and all amounts", "anchors": ["javascore/bsh/src/main/java/foundation/icon/btp/bsh/ServiceHandler.java: tokenFallback, transfer, setBalance, handleBTPMessage, handleBTPError, handleFeeGathering"]}
{"id": "C103", "title": "every token transfer is settled or given back in full", "statement": "An answer or an error for a pending transfer closes it: on success amount and fee are unlocked and the fee booked, otherwise all of it is usable again.", "quantifier": "every history, number, code and sender", "why_tests_cant": "all histories and transfers", "anchors": ["javascore/bsh/src/main/java/foundation/icon/btp/bsh/ServiceHandler.java: handleBTPMessage (239-289), handleBTPError (305-334)"]}
{"id": "C104", "title": "gathered fees are sent once or booked again", "statement": "A fee gathering sends all fees in one request and resets them; if it fails they are booked again, once; the receiver pays all of them.", "quantifier": "every history and list of registered tokens", "why_tests_cant": "all histories", "anchors": ["javascore/bsh/src/main/java/foundation/icon/btp/bsh/ServiceHandler.java: handleFeeGathering (360-382), handleBTPMessage (215-289), handleBTPError"]}
{"id": "C105", "title": "deposited tokens can be taken back", "statement": "A user can withdraw tokens deposited and not yet sent.", "quantifier": "every history and call", "why_tests_cant": "that no call does it is a statement on all calls and states", "anchors": ["javascore/bsh/src/main/java/foundation/icon/btp/bsh/ServiceHandler.java: tokenFallback, all external methods"]}
{"id": "C106", "title": "only owners change owners and tokens; the count is right", "statement": "Calls of others to add or remove owners or to register tokens change nothing; adding and removing changes exactly the named owner; the count kept is the number of owners.", "quantifier": "every state, caller and address", "why_tests_cant": "all states and callers", "anchors": ["javascore/bsh/src/main/java/foundation/icon/btp/bsh/ServiceHandler.java: addOwner, removeOwner, onlyOwner, isAnOwner, checkMinOwners, register"]}
{"id": "C107", "title": "tokens promised to buyers of fees are held", "statement": "What depositors may claim of a token, together with what is on sale, is held by the contract; a claim is paid.", "quantifier": "every history of calls, all tokens and depositors", "why_tests_cant": "all histories", "anchors": ["javascore/fee-aggregation/src/main/java/foundation/icon/btp/FeeAggregationSCORE.java: deposit, claim, endAuction, distributeTokenShare, registerIRC2, registerIRC31", "javascore/fee-aggregation/src/main/java/foundation/icon/btp/Syndication.java: deposit"]}
{"id": "C108", "title": "coins due to depositors are held", "statement": "The coins of the contract cover the deposits of open auctions and the refunds of ended ones.", "quantifier": "every history of calls", "why_tests_cant": "all histories", "anchors": ["javascore/fee-aggregation/src/main/java/foundation/icon/btp/FeeAggregationSCORE.java: endAuction (447-450), distributeTokenShare (477-484), withdrawal"]}
{"id": "C109", "title": "tokens are shared by deposits at the discounted price", "statement": "When an auction ends each depositor is credited once: tokens at the discounted price or, if too much was deposited, by the part of the deposits, with the coins not used as refund; together at most what was on sale.", "quantifier": "all amounts, prices, units and deposits", "why_tests_cant": "all amounts and roundings", "anchors": ["javascore/fee-aggregation/src/main/java/foundation/icon/btp/FeeAggregationSCORE.java: distributeTokenShare (458-487)"]}
{"id": "C110", "title": "an auction that is over can be ended", "statement": "After its time an auction can be ended, and does not block later deposits and claims.", "quantifier": "every state, call and price", "why_tests_cant": "that no call ends it is a statement on all calls", "anchors": ["javascore/fee-aggregation/src/main/java/foundation/icon/btp/FeeAggregationSCORE.java: deposit (309-327), claim (402-407), endAuction, distributeTokenShare"]}
{"id": "C111", "title": "a deposit counts in exactly one auction", "statement": "A deposit before the end counts in the open auction, later ones in a new auction that ends the set time after its start.", "quantifier": "every state, time and amount", "why_tests_cant": "all states and times", "anchors": ["javascore/fee-aggregation/src/main/java/foundation/icon/btp/FeeAggregationSCORE.java: deposit, setDurationTime", "javascore/fee-aggregation/src/main/java/foundation/icon/btp/Syndication.java: Syndication, deposit"]}
{"id": "C112", "title": "a stored dictionary is a map", "statement": "Reading, membership and listing of keys agree with what was set and removed, within an instance of the contract and in later ones.", "quantifier": "every history of calls and instances, all keys and values", "why_tests_cant": "all histories; keys are one joined string, and an instance keeps four overlapping caches", "anchors": ["pyscore/lib/icon/db.py: IterableDictDB (20-255)"]}
{"id": "C113", "title": "removing all entries empties a stored dictionary", "statement": "After remove_all no key is left.", "quantifier": "every dictionary reached by a history", "why_tests_cant": "all dictionaries; small ones behave differently from larger ones", "anchors": ["pyscore/lib/icon/db.py: remove_all (214-216), remove (190-212)"]}
{"id": "C114", "title": "stored properties are read back", "statement": "A property reads as the last value set, or as its default if none was set or it was removed.", "quantifier": "all values of all kinds, every history of calls and instances", "why_tests_cant": "all values and histories", "anchors": ["pyscore/lib/icon/db.py: PropertiesDB (324-529)", "pyscore/lib/const.py: Const"]}
{"id": "C115", "title": "the Python RLP codec is that of the relay", "statement": "Objects written by the Python contracts are read back, and are the bytes that the Go codec writes and reads.", "quantifier": "all objects and types, all byte strings", "why_tests_cant": "all nestings and lengths; lengths of three bytes and more are rare in tests", "anchors": ["pyscore/lib/icon/rlp.py: rlp_encode, rlp_encode_bytes, rlp_encode_list_with_encoded, rlp_decode, rlp_decode_header, rlp_decode_part", "common/codec/rlp.go"]}
{"id": "C116", "title": "the Python base64 functions", "statement": "What is encoded is decoded, in both alphabets, with or without padding; each byte string has one text.", "quantifier": "all byte strings", "why_tests_cant": "all byte strings and paddings", "anchors": ["pyscore/lib/icon/base64.py: encode, decode, _decode_length, base64url_decode"]}
{"id": "C117", "title": "the Python contracts parse BTP addresses as the other ones do", "statement": "A text is parsed into protocol, network and account as by the Java and Solidity contracts, and the text of the result is the text parsed.", "quantifier": "all texts", "why_tests_cant": "all texts; separators within the parts", "anchors": ["pyscore/lib/btp_address.py", "javascore/lib/src/main/java/foundation/icon/btp/lib/BTPAddress.java"]}
{"id": "C118", "title": "the Python accumulator of block hashes", "statement": "The accumulator of the Python verifier holds the same roots as the Java one and the relay; an accepted witness is for a hash that was added at the stated height, and the witnesses of the relay are accepted.", "quantifier": "all sequences of hashes, all witnesses, hashes and heights", "why_tests_cant": "all numbers of blocks and all (also forged) witnesses", "anchors": ["pyscore/lib/icon/mta.py: add, verify, _verify, get_root_idx_by_height, to_bytes", "common/mta/accumulator.go"]}
{"id": "C119", "title": "the Python trie proofs", "statement": "An accepted proof is of the value stored under the key in the trie with this root, and proofs made from a trie are accepted.", "quantifier": "all tries, keys, lists of nodes, hash functions (up to collisions)", "why_tests_cant": "all tries and forged node lists", "anchors": ["pyscore/lib/icon/mpt.py: MerklePatriciaTree, Node.prove"]}
{"id": "C120", "title": "the Python verifier follows one chain of signed blocks", "statement": "The blocks accepted are consecutive, each signed by more than two thirds of the validators named by the block before; the accumulator holds exactly these; two contracts disagree only if a third of some validators signed twice.", "quantifier": "all histories of calls with arbitrary bytes", "why_tests_cant": "all histories and all forged messages", "anchors": ["pyscore/bmv/icon/icon.py: _last_receipt_hash, handleRelayMessage", "pyscore/bmv/icon/message.py: Votes.verify, BlockUpdate.verify, BlockProof.verify"]}
{"id": "C121", "title": "the Python verifier returns exactly the proved messages", "statement": "What is returned are all messages for this contract among the events proved against a block of the chain, in order, with consecutive sequence numbers; only the message center can call.", "quantifier": "all histories of calls with arbitrary bytes", "why_tests_cant": "all histories and all forged receipts and events", "anchors": ["pyscore/bmv/icon/icon.py: handleRelayMessage, _check_accessible", "pyscore/bmv/icon/message.py: EventLog, Receipt, ReceiptProof, EventProof"]}
{"id": "C122", "title": "numbering and delivery in the Python message center", "statement": "Messages sent over a link are numbered 1, 2, … without gaps and messages taken over a link are those numbered 1, 2, … each once, in order and as sent by the other side.", "quantifier": "all histories of calls, also calls made by services while a message is handled", "why_tests_cant": "all interleavings of calls and all nestings", "anchors": ["pyscore/bmc/bmc.py: handleRelayMessage, _send_message, addLink, removeLink", "pyscore/bmc/link.py: BTPLink"]}
{"id": "C123", "title": "permissions of the Python message center", "statement": "With access control on, a guarded call succeeds only for an account holding the permission; permissions come only from addPermission and addService and end with removePermission and removeService.", "quantifier": "all states, callers and histories", "why_tests_cant": "all states and callers; the empty list of permissions is stored and read as another state", "anchors": ["pyscore/bmc/bmc.py: _has_permission, setAccessPermission, addPermission, removePermission", "pyscore/bmc/permission.py"]}
{"id": "C124", "title": "links, verifiers and routes of the Python message center fit together", "statement": "Every link has a verifier of its network; a verifier cannot be removed while a link needs it; routes lead over links; a network has one link.", "quantifier": "all histories of calls", "why_tests_cant": "all orders of configuration calls and messages", "anchors": ["pyscore/bmc/bmc.py: addLink, removeLink, addVerifier, removeVerifier, addRoute"]}
{"id": "C125", "title": "rotation of relays in the Python message center", "statement": "With fixed terms only the relay whose turn it is, or after the delay the one whose turn it would be, relays messages; turns go round; relays are registered relayers and can leave.", "quantifier": "all histories, heights and settings", "why_tests_cant": "all heights and numbers of relays", "anchors": ["pyscore/bmc/bmc.py: handleRelayMessage, addRelay, removeRelay", "pyscore/bmc/link.py: rotate, rotate_term, scale"]}
{"id": "C126", "title": "no message blocks a link of the Python message center", "statement": "Whatever message arrives over a link, later messages can still be taken over it.", "quantifier": "all message bytes, states and histories", "why_tests_cant": "all message contents; consequences for all later histories", "anchors": ["pyscore/bmc/bmc.py: handleRelayMessage, _handle_message, _handle_internal", "pyscore/bmc/message.py"]}
{"id": "C127", "title": "routing and errors of the Python message center", "statement": "A message goes to the network it names over an existing link, unchanged; one that cannot be delivered is answered to the sender with the code and the negated number; events concern the link they come over.", "quantifier": "all messages and states", "why_tests_cant": "all routing tables and messages", "anchors": ["pyscore/bmc/bmc.py: _resolve, _send_message, sendMessage, _send_error, _handle_internal"]}
{"id": "C128", "title": "balances of the Python token service", "statement": "After every history the usable and locked balance of a user are what the deposits, reclaims, transfers and answers give; the locked balance is the sum of the pending transfers; neither is negative.", "quantifier": "all histories of calls by anybody, also calls made by token contracts while tokens are given out", "why_tests_cant": "all histories and nestings", "anchors": ["pyscore/token/token_bsh.py: Balance, PendingTransferDB, tokenFallback, reclaim, transfer, handleBTPMessage, handleBTPError"]}
{"id": "C129", "title": "transfers of the Python token service", "statement": "Transfers are numbered 1, 2, …; each ends at most once, with what it was started with, by the answer or error of the network it went to.", "quantifier": "all histories", "why_tests_cant": "all interleavings of transfers, answers and errors", "anchors": ["pyscore/token/token_bsh.py: transfer, _handle_response, handleBTPError"]}
{"id": "C130", "title": "token registry of the Python token service", "statement": "Listed names are different and have one contract, which never changes; only listed contracts deposit; unregistered tokens are out of use and can be registered again.", "quantifier": "all histories and states", "why_tests_cant": "all orders of registrations and transfers", "anchors": ["pyscore/token/token_bsh.py: register, unregister, tokenFallback, tokenNames"]}
{"id": "C131", "title": "messages to the Python token service", "statement": "A request is credited once and answered; no message makes the service raise an exception that stops the link; answers end an exchange.", "quantifier": "all messages and states of the service and the message center", "why_tests_cant": "all message contents", "anchors": ["pyscore/token/token_bsh.py: handleBTPMessage, _handle_request, _create_message", "pyscore/bmc/bmc.py: _handle_message"]}
{"id": "C132", "title": "token services of two networks", "statement": "For every interleaving of users on both networks and every order of arrival, each transfer is received at most once, with its token, value and receiver; it is never both received and given back; a settled one was received; with nothing under way the balances of both networks together are the tokens held.", "quantifier": "all executions of two services that exchange requests, answers and errors, in any order of arrival, each packet once", "why_tests_cant": "all interleavings and orders of arrival, unbounded histories", "anchors": ["pyscore/token/token_bsh.py: transfer, _handle_request, _handle_response, handleBTPError", "pyscore/bmc/bmc.py: _handle_message (errors for refused messages)"]}
{"id": "C133", "title": "relay messages from bytes in the EVM verifier", "statement": "The verifier decodes every relay message to exactly the messages the relay put into it, whatever follows the message and whatever memory holds behind any part of it; whatever bytes are sent, decoded hashes have 32 bytes and addresses 20; histories of calls with bytes do what the decoded calls do, so an honest chain relayed as bytes is released completely and in order.", "quantifier": "all messages, headers, proofs, encodings with nil or empty parts, trailing bytes and memory contents; all histories of calls", "why_tests_cant": "the decoder reads behind the ends of byte strings, all memory contents and all byte strings are covered", "anchors": ["solidity/bmv/contracts/libraries/RelayMessageLib.sol:19-43", "solidity/bmv/contracts/libraries/BlockUpdateLib.sol:30-69, 109-129", "solidity/bmv/contracts/libraries/MessageProofLib.sol:31-45, 153-163", "solidity/bmv/contracts/BtpMessageVerifier.sol:49-138", "chain/icon/btp2/message.go:11-13, 120-145", "common/mbt/proof.go:67-77"]}
{"id": "C134", "title": "accepted texts of fixed-width integers", "statement": "ParseInt and ParseUint of any width up to 64 accept exactly the integer literals of the Go language (ParseInt with an optional sign) within the range, and, for texts that are no literals, hexadecimal digits without prefix that fit the width; a literal out of range is refused and never read again as hexadecimal digits.", "quantifier": "all texts, all widths from 1 to 64", "why_tests_cant": "the two parsers are tried one after the other; that no text is taken by the second with another meaning is a statement on all texts", "anchors": ["common/intconv/string.go:45-58", "common/intconv/string.go:60-102"]}
{"id": "C135", "title": "messages from ICON to an EVM chain, end to end", "statement": "A message handled on the EVM chain at a place is the message ICON gave its BTP network with the number of that place, with the same contents, however often and with whatever bytes relays call, from any state of both message centers on; and what an accepted relay message carries is handed on completely and in order.", "quantifier": "all histories of both message centers, all relay messages as bytes, memory contents, all chains of blocks, all messages that fit the EVM", "why_tests_cant": "composes both message centers, the byte codecs of both languages, the Merkle trees and the verifier over all histories", "anchors": ["javascore/bmc/src/main/java/foundation/icon/btp/bmc/BTPMessage.java:112-145", "javascore/bmc/src/main/java/foundation/icon/btp/bmc/FeeInfo.java:75-99", "javascore/bmc/src/main/java/foundation/icon/btp/bmc/BTPMessageCenter.java:840-856", "solidity/bmc/contracts/BMCPeriphery.sol:76-132", "solidity/bmc/contracts/BMCService.sol:149-153", "solidity/bmv/contracts/BtpMessageVerifier.sol:49-138"]}
{"id": "C136", "title": "EVM address texts", "statement": "parseAddress accepts exactly 0x followed by 40 hexadecimal digits of either case and gives the address they spell; toString and parseAddress are inverse; the checksummed text follows ERC-55; isChecksumValid is false for every text (it compares the text against one without 0x) unless a hash collision shows.", "quantifier": "all byte strings, all addresses, any hash function", "why_tests_cant": "quantifies over all texts and addresses; the always-false check can only be shown for all inputs", "anchors": ["solidity/bmc/contracts/libraries/ParseAddress.sol"]}
{"id": "C137", "title": "Solidity string functions", "statement": "split gives the parts of a text between delimiters; splitBTPAddress gives network and account of a BTP address; bytesToHex is injective; compareTo is equality; lower changes capital letters only; _indexOf finds the first place.", "quantifier": "all texts, delimiters, offsets; all BTP addresses", "why_tests_cant": "the functions fail for texts of particular shapes only (a last part of one character, two delimiters at the end)", "anchors": ["solidity/bmv/contracts/libraries/String.sol", "solidity/bmv/contracts/BtpMessageVerifier.sol:41"]}
{"id": "C138", "title": "Solidity number texts, and errors that carry them", "statement": "parseInt reads decimal texts, toString writes decimal texts; an error from the message center enables the rollback of the call it concerns, whatever its code.", "quantifier": "all texts, all numbers of 256 bits, all states of the call service in both languages, all codes", "why_tests_cant": "tests use short numbers; parseInt is not tested", "anchors": ["solidity/xcall/contracts/libraries/Integers.sol", "solidity/xcall/contracts/CallService.sol:242-260", "javascore/xcall/src/main/java/foundation/icon/btp/xcall/CallServiceImpl.java:247-255"]}
{"id": "C139", "title": "service messages between ICON and EVM chains", "statement": "Every message that ICON's message center or call service writes for its counterpart (announcements of links, responses, claims, calls and their answers) is read by the Solidity contracts with the same contents, missing values as empty; and the Solidity contracts write the bytes ICON writes for the same contents.", "quantifier": "all contents, with or without missing values; any memory behind the message", "why_tests_cant": "quantifies over all byte strings and numbers and all memory contents; the exceptions are single lengths and numbers", "anchors": ["javascore/bmc/src/main/java/foundation/icon/btp/bmc/BMCMessage.java:75-80", "javascore/bmc/src/main/java/foundation/icon/btp/bmc/InitMessage.java:78-87", "javascore/bmc/src/main/java/foundation/icon/btp/bmc/ResponseMessage.java:80-85", "javascore/bmc/src/main/java/foundation/icon/btp/bmc/ClaimMessage.java:76-81", "javascore/xcall/src/main/java/foundation/icon/btp/xcall/CSMessage.java:44-49", "javascore/xcall/src/main/java/foundation/icon/btp/xcall/CSMessageRequest.java:61-69", "javascore/xcall/src/main/java/foundation/icon/btp/xcall/CSMessageResponse.java:53-59", "solidity/bmc/contracts/libraries/RLPDecodeStruct.sol", "solidity/xcall/contracts/libraries/RLPDecodeStruct.sol", "solidity/bmc/contracts/libraries/RLPEncodeStruct.sol", "solidity/xcall/contracts/libraries/RLPEncodeStruct.sol"]}
{"id": "C140", "title": "no message blocks a link", "statement": "A relay call with messages released by the verifier and made by a relay of the link is carried out whatever the messages are, so no message stops the ones behind it; and what a message center sends can be taken by the one it is sent to.", "quantifier": "all states and histories, all messages, all behaviours of services and of the management contract", "why_tests_cant": "quantifies over all messages and states; the messages that block are combinations of signs and single numbers no ordinary sender produces, and that they are never passed is a statement about all continuations", "anchors": ["solidity/bmc/contracts/BMCPeriphery.sol:80-131", "solidity/bmc/contracts/BMCPeriphery.sol:383-399", "solidity/bmc/contracts/BMCService.sol:149-169", "solidity/bmc/contracts/BMCManagement.sol:496-525", "javascore/bmc/src/main/java/foundation/icon/btp/bmc/BTPMessageCenter.java:518-582"]}
{"id": "C141", "title": "applications get their rollback data back exactly when a call failed", "statement": "The sample application over the call service reports rollback data exactly for its calls that failed: once per call, with the data and serial number it sent, and every rollback that the call service runs for it succeeds; messages of other chains are reported as they were sent and are never taken for rollbacks.", "quantifier": "all histories of application, call service and other contracts on the chain, with re-entrance; all data", "why_tests_cant": "quantifies over all interleavings with other callers of the call service and over all data and message origins", "anchors": ["e2edemo/dapp-sample/src/main/java/foundation/icon/btp/xcall/sample/DAppProxySample.java:56-113", "e2edemo/dapp-sample/src/main/java/foundation/icon/btp/xcall/sample/RollbackData.java:55-112", "e2edemo/solidity/contracts/dapp-sample/DAppProxySample.sol:47-102", "javascore/xcall/src/main/java/foundation/icon/btp/xcall/CallServiceImpl.java:142-200", "solidity/xcall/contracts/CallService.sol:150-218"]}
{"id": "C142", "title": "EVM to ICON over the bridge verifier, end to end", "statement": "Whatever the two chains do and whatever relays submit, in any order and any number of times, as long as they present only events the EVM chain emitted for the link: ICON handles every number from 1 to its received number exactly once, and under each number the message the EVM message center sent under that number, with the same contents; and every such message can be delivered.", "quantifier": "all histories of both chains, all relay messages, all messages within the limits of the encoders", "why_tests_cant": "quantifies over all interleavings of two chains and relays and over all messages; crosses three code bases (Solidity, relay format, Java)", "anchors": ["solidity/bmc/contracts/BMCPeriphery.sol:76-132", "solidity/bmc/contracts/libraries/RLPEncodeStruct.sol:47-63", "javascore/bmv/bridge/src/main/java/foundation/icon/btp/bmv/bridge/BTPMessageVerifier.java:43-84", "javascore/bmc/src/main/java/foundation/icon/btp/bmc/BTPMessageCenter.java:485-572"]}
{"id": "C143", "title": "ICON to ICON over the block verifier, end to end", "statement": "Whatever the two chains do and whatever relay messages are submitted: the destination handles every number from 1 to its received number exactly once and under each number the message the source gave to the BTP network under that number, unless a hash collision shows; and a relay that submits the next block with its proof gets all its messages handled.", "quantifier": "all histories of both chains, all relay messages, all messages and blocks", "why_tests_cant": "quantifies over histories of two chains and over adversarial relay messages against arbitrary hash functions", "anchors": ["javascore/bmc/src/main/java/foundation/icon/btp/bmc/BTPMessageCenter.java:485-572", "javascore/bmv/btpblock/src/main/java/foundation/icon/btp/bmv/btpblock/BTPMessageVerifier.java:54-86", "javascore/bmc/src/main/java/foundation/icon/btp/bmc/BTPMessage.java:124-145"]}
{"id": "C144", "title": "Giving up one message lets the next ones through", "statement": "After an owner has given up a message of a link (dropMessage), the messages that follow it can still be relayed and handled.", "quantifier": "all states in which the link works, all later calls by anyone", "why_tests_cant": "a claim over all later histories; the tests drop messages with a mock verifier that does not count", "anchors": ["javascore/bmc/src/main/java/foundation/icon/btp/bmc/BTPMessageCenter.java:971-1008", "javascore/bmv/btpblock/src/main/java/foundation/icon/btp/bmv/btpblock/BTPMessageVerifier.java:54-62", "solidity/bmc/contracts/BMCPeriphery.sol:383-399", "solidity/bmv/contracts/BtpMessageVerifier.sol:84-138"]}
{"id": "C145", "title": "the fund that auctions pay into keeps its books", "statement": "Every coin that came into the fund is held, burned, or sent to the CPS treasury by a call of the CPS contract; the fund never holds more than its maximum; every proposal is recorded once, with what was sent for it less what came back, never negative; payments to the fund are accepted; reading in pages gives every record once.", "quantifier": "all histories of calls by anyone, all amounts, all page bounds", "why_tests_cant": "invariants over all histories and all integer arguments, negative ones included", "anchors": ["javascore/fee-aggregation/CPFTreasury/cpf_treasury.py:142-152", "javascore/fee-aggregation/CPFTreasury/cpf_treasury.py:163-283", "javascore/fee-aggregation/CPFTreasury/cpf_treasury.py:285-317"]}
{"id": "C146", "title": "the sample tokens keep their books", "statement": "For the multi-token and the IRC2 token: the holders have together what was made less what was destroyed, no balance is negative, a kind is made once, only the holder or an approved operator makes a balance smaller, and a batch is the single transfers one after the other or nothing.", "quantifier": "all histories of calls, all holders, ids and values", "why_tests_cant": "conservation over all histories; tests check single calls", "anchors": ["javascore/fee-aggregation/SampleMultiToken/token/irc31_basic.py:80-178", "javascore/fee-aggregation/SampleMultiToken/token/irc31_mintburn.py:27-58", "pyscore/token/sample/irc2/irc2_token.py:59-124"]}
{"id": "C147", "title": "the events of the multi-token tell its balances", "statement": "The events of transfers, batches, making and destroying tell the balance of every holder: the bytes in the event of a batch are the RLP form of its ids and values.", "quantifier": "all histories, all ids and values", "why_tests_cant": "depends on rounding of floats in the integer encoding, which small test values never meet", "anchors": ["javascore/fee-aggregation/SampleMultiToken/util/rlp.py:18-46", "javascore/fee-aggregation/SampleMultiToken/token/irc31_basic.py:117-165"]}
{"id": "C148", "title": "the price reference tells the last price given", "statement": "The price of a pair is told exactly if both symbols are known and the second is not 0; it is computed from the last entries given by the owner, in lists of equal length; the dollar is one; prices there and back do not multiply to more than one; an entry is never replaced by an older one.", "quantifier": "all histories of relay calls, all symbols and rates", "why_tests_cant": "quantifies over histories and rates", "anchors": ["javascore/fee-aggregation/bandProtocol/std_reference_basic.py:26-89"]}
{"id": "C149", "title": "JSON forms of numbers and bytes mean what was written", "statement": "Numbers and bytes written to JSON by the Go types are read again unchanged, with nil and empty bytes told apart; what is read is in the range of the type; a JSON number is read with its value or refused; a string of hexadecimal digits gives the bytes it denotes and any other text is refused.", "quantifier": "all values of every type, all JSON values", "why_tests_cant": "quantifies over all texts; the misread forms (exponents, null) are in no test", "anchors": ["common/hexint.go:11-269", "common/hexbytes.go:9-94"]}
{"id": "C150", "title": "helpers of the Java contracts: tokens, names, hexadecimal text, arrays, validators at deployment", "statement": "Tokens are exactly the words between delimiters; the validators of an ICON verifier are the addresses in the deployment text; hexadecimal text is read as the bytes it denotes and refused otherwise; sorting gives the same elements in order; names of services have at least one letter or digit and nothing else.", "quantifier": "all texts, all arrays and comparisons", "why_tests_cant": "quantifies over all strings and arrays", "anchors": ["javascore/score-util/src/main/java/foundation/icon/score/util/StringUtil.java:25-100", "javascore/score-util/src/main/java/foundation/icon/score/util/ArrayUtil.java:64-91", "javascore/bmv/icon/src/main/java/foundation/icon/btp/bmv/icon/Validators.java:53-73"]}
{"id": "C151", "title": "memory routines of the EVM libraries copy and join byte strings and harm no other memory", "statement": "Copying, joining two byte strings and joining an array of byte strings give exactly the bytes of their arguments for every length and position, change no memory in use but the free memory pointer, and move that behind the result; reading the items of an encoding from memory gives what reading them from its bytes gives; the bytes of an address have length 20.", "quantifier": "all memories, addresses and lengths", "why_tests_cant": "quantifies over all contents of memory, also behind the free memory pointer, which a test on a fresh EVM finds zero", "anchors": ["solidity/bmc/contracts/libraries/RLPEncode.sol:103-114", "solidity/bmc/contracts/libraries/RLPEncode.sol:271-390", "solidity/bmc/contracts/libraries/RLPDecode.sol:54-64", "solidity/bmc/contracts/libraries/RLPDecode.sol:100-253", "solidity/bmc/contracts/libraries/RLPDecode.sol:260-360", "solidity/bmv/contracts/libraries/Utils.sol:10-31"]}
{"id": "C152", "title": "the circular queue of the EVM verifier computes the root as on lists", "statement": "The queue gives back its elements in the order they were pushed, around the end of its array; the root and the number of leaves computed with it are those of the computation on lists, and it is never over-filled or read when empty.", "quantifier": "all sequences of nodes, all hash functions", "why_tests_cant": "quantifies over all numbers and levels of nodes, so over all ways the queue wraps around its array", "anchors": ["solidity/bmv/contracts/libraries/MessageProofLib.sol:23-28", "solidity/bmv/contracts/libraries/MessageProofLib.sol:53-99", "solidity/bmv/contracts/libraries/MessageProofLib.sol:131-153"]}
{"id": "C153", "title": "objects of the Java contracts are read back as written", "statement": "For every class with both methods, what writeObject writes readObject reads back to the same object, whatever follows it; exactly the objects whose required fields are not null can be written; different objects have different bytes; the bytes hashed for a block header are the bytes that were relayed.", "quantifier": "all objects of 58 classes, all field values including null", "why_tests_cant": "quantifies over all values of all fields and combinations of nulls, nested readers and lists", "anchors": ["javascore/bmc/src/main/java/foundation/icon/btp/bmc/BTPMessage.java:106-134", "javascore/bmc/src/main/java/foundation/icon/btp/bmc/Link.java:82-120", "javascore/bmv/icon/src/main/java/foundation/icon/btp/bmv/icon/Result.java:78-105", "javascore/bmv/icon/src/main/java/foundation/icon/btp/bmv/icon/Receipt.java:131-185", "javascore/bmv/icon/src/main/java/foundation/icon/btp/bmv/icon/BlockHeader.java:145-188", "javascore/bmv/icon/src/main/java/foundation/icon/btp/bmv/icon/MerkleTreeAccumulator.java:338-408", "javascore/bmv/icon/src/main/java/foundation/icon/btp/bmv/icon/BTPMessageVerifier.java:177-246", "javascore/lib/src/main/java/foundation/icon/btp/lib/BTPAddress.java:109-119"]}
{"id": "C154", "title": "codec: maps, custom methods, lists of objects, step by step encoding, Skip", "statement": "A map is written in one way whatever the iteration order of the runtime, and is read back with the same entries; maps with other entries have other bytes. Objects with their own codec methods are read back, whether they are passed by pointer or by value. DecodeListOf reads what EncodeListOf wrote and refuses shorter lists. Nested lists written step by step give the encoding meant, and any sequence of calls gives well-formed output. Skip goes past exactly the values that ReadRaw returns.", "quantifier": "all types built from the constructors, all values, all iteration orders, all call sequences, all inputs", "why_tests_cant": "iteration order of maps is random; quantifies over all types and nestings and all call sequences", "anchors": ["common/codec/codec.go:152-181 tryCustom", "common/codec/codec.go:237-314 encodeValue", "common/codec/codec.go:346-436 EncodeListOf, DecodeListOf", "common/codec/codec.go:442-467 tryCustom", "common/codec/codec.go:613-638", "common/codec/rlp.go:31-97 Skip", "common/hexint.go:36-269"]}
{"id": "C155", "title": "relay configuration: paths, save, links", "statement": "A log file or base directory given to the relay is the one meant where the command is given; stored relative to a configuration file it is found again from every working directory. A relay started from a saved configuration uses the files of the relay that was saved. The links of each direction read the one side and write to the other with the wallet of the side written to, and the options of that side.", "quantifier": "all working directories, all texts of paths (with ., .., repeated separators), all configuration files and save targets, all directions and sides", "why_tests_cant": "quantifies over all pairs of directories and all path texts; the defects show only when the working directory and the directory of the file differ, or a name is left empty", "anchors": ["common/config/fileconfig.go:16-37", "cmd/relay/main.go:144-168 PersistentPreRunE", "cmd/relay/main.go:224-258 save", "cmd/relay/main.go:317-328 setLogger", "cmd/relay/linkfatory.go:18-139 NewLink", "chain/icon/sender.go:59-79 NewSender"]}
{"id": "C156", "title": "solvency of a network of EVM message centers", "statement": "In a network of EVM message centers, where messages under way are delivered at most once, services make no relay calls while they handle a message, the name bmc stays with the own service, owners drop messages truly and clear no links: for every chain, the rewards, kept fees and given-up fees on all chains and the fees of all messages under way in its currency, together with all its payments, never exceed the coins it received with calls. So a claim of rewards in the own currency never fails for want of coins, and claims credited are always backed by claims taken from rewards elsewhere and not given back.", "quantifier": "all networks of any number of chains, all interleavings of calls and deliveries on all chains (any message to any chain in any order, to handlers that send and claim in turn), all fees, routes, services and relays changing between any two messages", "why_tests_cant": "quantifies over all interleavings of all chains of a network; the amount moves between reward, request, message under way and credit on different chains", "anchors": ["solidity/bmc/contracts/BMCPeriphery.sol:78-132 handleRelayMessage", "solidity/bmc/contracts/BMCPeriphery.sol:430-459 claimReward", "solidity/bmc/contracts/BMCService.sol:93-196 rewards and fees", "solidity/bmc/contracts/BMCService.sol:241-294 handleResponse, handleBTPMessage"]}
{"id": "C157", "title": "a network of EVM message centers with numbered links", "statement": "In a network of EVM message centers whose verifiers release the messages another chain emitted for the link, following the number received: every chain has handled for each link exactly the first messages emitted for it, in order and each once (those dropped by the owner counted but not handled), and the rewards and kept fees on all chains with the fees on any link and all payments are covered by the coins received, so that claims can always be paid. The network refines the one of C156.", "quantifier": "all networks of any number of chains with different addresses, all interleavings of calls, relays and drops on all chains, all routes, fees and services changing between any two messages", "why_tests_cant": "quantifies over all interleavings of all chains; no assumption is made on what is under way, it follows from the numbers of both ends", "anchors": ["solidity/bmc/contracts/BMCPeriphery.sol:78-132 handleRelayMessage", "solidity/bmc/contracts/BMCPeriphery.sol:200-208 _sendMessage", "solidity/bmc/contracts/BMCPeriphery.sol:383-459", "solidity/bmc/contracts/BMCManagement.sol:496-525 dropMessage"]}
{"id": "C158", "title": "requests and answers in a network of EVM message centers", "statement": "In a network of EVM message centers every chain takes at most one answer to each message it sent. An answer belongs to a message the chain itself sent in the name of the same service with a positive number, and is either an error carrying that number negated or was sent by the chain the message went to. Once the answer is there, neither the message nor another answer is under way and no chain owes one. A request is always under way, owed, answered under way or answered, unless its service used the same number again for the same chain or an answer was given up; in the first case it is never answered. Messages with one number are one message, fees aside.", "quantifier": "all networks of any number of chains, all interleavings of calls, relays and drops, all routes, fees, services, service failures and calls made by services while they handle a message; with a pool of messages and with numbered links", "why_tests_cant": "an invariant over every reachable state of any number of chains; a test sees one interleaving of a few messages", "anchors": ["solidity/bmc/contracts/BMCPeriphery.sol:78-238", "solidity/bmc/contracts/BMCPeriphery.sol:240-326 sendMessage", "solidity/bmc/contracts/BMCService.sol:149-239", "solidity/bmc/contracts/BMCManagement.sol:496-525 dropMessage"]}
{"id": "C159", "title": "calls between contracts over a network of EVM message centers", "statement": "When every chain of a network has the EVM message center and the EVM call service, and the messages between the services go through the message centers, then: the rollback of a call is run only if the call is nowhere executed with success; a success reported is the success of the execution on the chain called with the data sent; what is executed was sent by the contract named; no call is received twice; a call is settled with the code of its execution or with -2. A call that wants an answer is always under way, waiting to be executed, answered under way or settled, unless an answer was given up by a message center. A waiting call can be executed by anyone, whatever the contract called does, and the answer is then sent. No message center owes more than it got.", "quantifier": "all networks of any number of chains, all interleavings of calls, relays and drops, all behaviours of called contracts and other services including calls back into both contracts, all routes and fees", "why_tests_cant": "both contracts on any number of chains with every interleaving and every behaviour of the contracts called; the repository tests the call service with a message center that is a mock", "anchors": ["solidity/xcall/contracts/CallService.sol:110-148 sendCallMessage", "solidity/xcall/contracts/CallService.sol:150-179 executeCall", "solidity/xcall/contracts/CallService.sol:195-318", "solidity/bmc/contracts/BMCPeriphery.sol:78-326", "solidity/bmc/contracts/BMCManagement.sol:496-525 dropMessage"]}
{"id": "C160", "title": "requests and answers in a network of EVM and ICON message centers", "statement": "In a network where every chain has the EVM message center or that of ICON: a chain takes at most one answer to each of its messages; once it is there, neither the message nor another answer is under way and no chain owes one; an answer belongs to a message the chain sent, in the name of the service that sent it and wanted an answer, and is an error with the number the service gave or comes from the chain the message went to; messages of a chain with one number are one message. The answer to a request is always somewhere: the request is under way, the answer is owed, under way or there, unless the service used the number again, an answer was given up, or an ICON message center gave up the request.", "quantifier": "all networks of any number of chains of both kinds, all interleavings of calls, relays, drops and owner actions, all behaviours of services and payees, all refusals of messages by the chain of ICON, all routes and fees", "why_tests_cant": "two implementations in two languages with every interleaving over any number of chains; no test of the repository runs both together", "anchors": ["javascore/bmc/src/main/java/foundation/icon/btp/bmc/BTPMessageCenter.java:508-886", "javascore/bmc/src/main/java/foundation/icon/btp/bmc/BTPMessageCenter.java:971-1008 dropMessage", "solidity/bmc/contracts/BMCPeriphery.sol:78-326", "solidity/bmc/contracts/libraries/RLPDecodeStruct.sol:18-36", "solidity/bmc/contracts/libraries/RLPEncodeStruct.sol:18-63"]}
{"id": "C161", "title": "calls between contracts over a network of EVM and ICON message centers", "statement": "In a network where every chain has a message center and a call service, of EVM or of ICON: the message centers behave as in C160 and the call services as in C76. A rollback is run only for a call that was not executed with success anywhere; a success reported is that of the execution on the chain and contract called with the data sent; what a service runs was sent to it by the contract the target is told; no call is received twice; a call is settled with the code of its execution or with -2. A call that wants an answer is always somewhere: its message is under way, the request waits on the chain called, the answer is under way or recorded, unless a message center gave up an answer or ICON gave up the request. A request that waits can be executed by anyone, and the answer is then sent.", "quantifier": "all networks of any number of chains of both kinds, all interleavings of calls of both contracts, relays, drops and owner actions, all behaviours of services, payees and contracts called (nested calls among them), all refusals of messages by the chain of ICON, all routes and fees", "why_tests_cant": "two contracts in two languages on any number of chains with nested calls; no test of the repository runs an EVM and an ICON chain together with every interleaving", "anchors": ["javascore/xcall/src/main/java/foundation/icon/btp/xcall/CallServiceImpl.java:142-300", "javascore/bmc/src/main/java/foundation/icon/btp/bmc/BTPMessageCenter.java:508-886", "solidity/xcall/contracts/CallService.sol:85-340", "solidity/bmc/contracts/BMCPeriphery.sol:78-326"]}
{"id": "C162", "title": "calls between contracts over numbered links between EVM and ICON chains", "statement": "In the network of C161 where a relay call brings the messages the other chain emitted for this one, from the number received on: every chain handles what another emits for it in the order emitted, each message once, none left out but those its owner dropped; the number received is the number handled or dropped. The network is then one of C161, and what is under way is what was not read from the links or was sent to an address outside. So rollbacks are run only for calls not executed with success, reported successes are real, what is run was sent, no call is received twice, and a call is settled with the code of its execution or -2. A call that wants an answer has its message or answer unread on a link, or waits, or is answered, or one of them was given up; once all links are read only the last three are left.", "quantifier": "all networks of any number of chains of both kinds, all interleavings of calls of both contracts, relays, drops and owner actions, all batches of messages, all behaviours of services, payees and contracts called, all refusals by the chain of ICON", "why_tests_cant": "exactly-once and in-order over both implementations under any interleaving, with nested calls, drops and both encodings; tests of the repository run one relay at a time between mocks", "anchors": ["javascore/bmc/src/main/java/foundation/icon/btp/bmc/BTPMessageCenter.java:508-600", "javascore/bmc/src/main/java/foundation/icon/btp/bmc/BTPMessageCenter.java:971-1008", "solidity/bmc/contracts/BMCPeriphery.sol:78-326", "javascore/xcall/src/main/java/foundation/icon/btp/xcall/CallServiceImpl.java:142-300", "solidity/xcall/contracts/CallService.sol:85-340"]}
{"id": "C163", "title": "fees and rewards of a network of EVM and ICON message centers", "statement": "In a network of EVM and ICON message centers, in the currency of any chain: rewards, fees kept for answers, claims, payments, coins in no account and fees of messages given up, on all chains, with the fees of messages under way, equal the coins the chain received with calls, the claims it credited and answered, the claims it credited while answering with an error, and the fees ICON chains collected twice. The claims credited and answered never exceed those other chains took from rewards and did not give back. So as long as no claim was credited with an error and no fee collected twice, everything owed is covered by the coins received, and a claim in the own currency never fails for want of coins.", "quantifier": "all networks of any number of chains of both kinds, all interleavings of calls, nested calls, relays, true drops and owner actions, all fees, amounts and behaviours of services, all refusals by the chain of ICON", "why_tests_cant": "a sum over all chains and messages under way in every reachable state of two implementations; tests look at one chain with a mock of the other", "anchors": ["javascore/bmc/src/main/java/foundation/icon/btp/bmc/BTPMessageCenter.java:508-710", "javascore/bmc/src/main/java/foundation/icon/btp/bmc/BTPMessageCenter.java:712-886", "solidity/bmc/contracts/BMCPeriphery.sol:78-326", "solidity/bmc/contracts/BMCService.sol:28-170"]}
{"id": "C164", "title": "calls between EVM and ICON chains through the verifiers of their links, down to the bytes", "statement": "In a network of EVM chains and ICON with message centers and call services, where the messages of every relay call are the decoded output of the verifier of the link (the bridge verifiers, given only events the other chain emitted, or the BTP block verifiers, given any bytes in any calls): what a verifier releases for the number of the link is the next messages the other chain emitted for this one, in order, none left out. So a call is received at most once and as sent, run at most once, a reported success is a success of the contract called, a rollback runs only if the call did not succeed. Messages emitted as events can always be brought through the bridge verifiers, on EVM chains any number at a time, whatever height is stored.", "quantifier": "all networks, all interleavings, all relay messages and orders of relay calls, all contents of blocks, all set-ups of the verifiers, all nested calls and contract behaviours", "why_tests_cant": "five contracts of two languages on each of any number of chains, and the bytes between them; the tests run each verifier alone with samples and the message centers with mock verifiers", "anchors": ["solidity/bmc/contracts/BMCPeriphery.sol:78-326", "solidity/bmc/contracts/BMCService.sol:149-153", "solidity/bmv-bridge/contracts/BMV.sol", "solidity/bmv/contracts/BtpMessageVerifier.sol:84-138", "javascore/bmc/src/main/java/foundation/icon/btp/bmc/BTPMessageCenter.java:508-886", "javascore/bmv/bridge/src/main/java/foundation/icon/btp/bmv/bridge/BTPMessageVerifier.java", "javascore/bmv/btpblock/src/main/java/foundation/icon/btp/bmv/btpblock/BTPMessageVerifier.java", "solidity/xcall/contracts/CallService.sol", "javascore/xcall/src/main/java/foundation/icon/btp/xcall/CallServiceImpl.java"]}
{"id": "C165", "title": "announcements of links between ICON message centers lead messages to networks two links away", "statement": "In a network of ICON message centers: at any time, the announcements (Init, Link, Unlink) a message center has emitted for a link since it was added tell exactly the addresses of its other links; the addresses a message center holds reachable over a link are what the announcements handled over it tell, in order; announcements are made in the own name for the neighbour and never passed on. So when a chain has read what its neighbour emitted, the reachable addresses of that link are the other links of the neighbour; a network without own link or route is resolved to a neighbour that is linked to it, if there is one, and is unreachable if there is none.", "quantifier": "all networks, all histories of owners' calls, messages, claims, relay calls and dropped messages, all interleavings", "why_tests_cant": "the tests check the announcements of one addLink and one removeLink call and the effect of one announcement; that both sides agree after any history is a statement about all of them", "anchors": ["javascore/bmc/src/main/java/foundation/icon/btp/bmc/BTPMessageCenter.java:214-267", "javascore/bmc/src/main/java/foundation/icon/btp/bmc/BTPMessageCenter.java:478-506", "javascore/bmc/src/main/java/foundation/icon/btp/bmc/BTPMessageCenter.java:639-692", "javascore/bmc/src/main/java/foundation/icon/btp/bmc/BTPMessageCenter.java:865-886"]}
{"id": "C166", "title": "announcements of links keep the tables of EVM message centers consistent across a network", "statement": "In a network of EVM message centers that handle each other's announcements (Init, Link, Unlink) in order: the tables of every chain stay consistent (no link listed twice, the network of every link resolves to that link, every network that resolves does so to a current link), every announcement can be handled, a link can be removed, and when a chain has read what its neighbours announced, a network without own link or route resolves to a neighbour linked to it if there is one and to nobody otherwise.", "quantifier": "all networks, all histories of owners' calls and announcements, all interleavings", "why_tests_cant": "the tests check one contract with a handful of announcements made up by the test; that the announcements real neighbours make lead all tables to agree is a statement about all histories of all chains", "anchors": ["solidity/bmc/contracts/BMCManagement.sol:216-290", "solidity/bmc/contracts/BMCManagement.sol:325-399", "solidity/bmc/contracts/BMCManagement.sol:595-630", "solidity/bmc/contracts/BMCService.sol:280-291"]}
{"id": "C167", "title": "from the bytes of relay messages to the messages sent, through the Python verifier", "statement": "Two chains with Python message centers and the Python verifier between them: whatever bytes are relayed, the messages the message center takes over the link are exactly the first ones that the message center of the other chain sent over it, in order, each once; a forgery needs more than a third of the validators of some block to sign two blocks at one height or a collision of the hash between what was relayed and what the chain holds.", "quantifier": "all histories of calls of both message centers and of the verifier, all bytes, all blocks, receipts and events", "why_tests_cant": "the tests relay a few honest messages; what no bytes can achieve after no history is a statement about all of them", "anchors": ["pyscore/bmv/icon/icon.py: handleRelayMessage, _last_receipt_hash", "pyscore/bmv/icon/message.py: RelayMessage, BlockUpdate, Votes, BlockProof, ReceiptProof, EventProof", "pyscore/bmc/bmc.py: handleRelayMessage, _send_message"]}
{"id": "C168", "title": "from relay messages to the messages sent, through the verifier contract for ICON blocks", "statement": "Two ICON chains with the verifier contract for ICON blocks between them: whatever is relayed after whatever history, every number up to the one received is handled exactly once and under it what the message center of the other chain sent under it; a forgery needs more than a third of the validators of some block to sign two blocks at one height or a collision of the hash between what was relayed and what the chain holds.", "quantifier": "all histories of calls of both message centers and of the verifier, all relay messages, blocks, receipts and events", "why_tests_cant": "the tests relay one honest message; what no relay message can achieve after no history is a statement about all of them", "anchors": ["javascore/bmv/icon/src/main/java/foundation/icon/btp/bmv/icon/BTPMessageVerifier.java:71-277", "javascore/bmc/src/main/java/foundation/icon/btp/bmc/BTPMessageCenter.java: handleRelayMessage", "javascore/bmv/icon/src/main/java/foundation/icon/btp/bmv/icon/EventLog.java:57-71"]}
{"id": "C169", "title": "tokens over the Python message centers and verifiers of two chains", "statement": "The Python token services of two chains over their message centers: whatever users, services and relays call on either chain, in whatever order and with whatever relay messages, a transfer is credited on the other chain at most once, only if it was started for it and with its token, value and receiver, and never both credited and given back; the balances on both chains are backed by the tokens held, exactly when all that was sent was taken; then each transfer was settled or given back. What the services get from each other are the messages in their name sent over the link, in order, each once.", "quantifier": "all histories of transactions of both chains: calls of message centers and services, relay calls with any messages their verifiers accept and any calls made while they are handled", "why_tests_cant": "the tests run one contract at a time with mocks for the others; that the interplay of six contracts on two chains loses and creates nothing in any order of transactions is a statement about all their joint histories", "anchors": ["pyscore/token/token_bsh.py: transfer, handleBTPMessage, handleBTPError", "pyscore/bmc/bmc.py: handleRelayMessage, _handle_service_message, sendMessage, _resolve_route, _on_link", "pyscore/bmv/icon/icon.py: handleRelayMessage"]}
{"id": "C170", "title": "what the relay logs and where it goes", "statement": "A relay starts only with levels that are levels. An entry is written to the file if there is one and the level is within log_level, and to the console if it is also within the level given for its module or else console_level; it is forwarded if it is within log_level and the level of the forwarder, with its fields, to the host and port configured. The module is the package of the caller if none is given. Each entry makes one line.", "quantifier": "all configurations, levels of modules, entries with any fields, callers and texts, all addresses", "why_tests_cant": "the only test of the package needs a server and asserts nothing about what is written; the statement is about all combinations of levels, modules and texts", "anchors": ["common/log/log.go: ParseLevel, Level.String, getPackageName, New", "common/log/filter.go: Format, GetModuleLevel", "common/log/formatter.go: Format", "common/log/forwarder.go: AddForwarder, HookLevels, NetworkAndHostPort, parseHostPort, Fire", "cmd/relay/main.go: setLogger"]}
{"id": "C171", "title": "options given on the command line are read as given", "statement": "Options given to the relay as key=value are read under their keys with their values; a value that is an integer or floating point literal becomes that number, any other stays text.", "quantifier": "all lists of options that need no quotes, all texts of keys and values", "why_tests_cant": "there is no test of the function; which values change is a question about all texts", "anchors": ["common/cli/helper.go: StringToStringConv, ViperDecodeOptJson", "cmd/relay/main.go:172,180,202"]}
{"id": "C172", "title": "the sample application on two chains agrees about what happened", "statement": "In a network of EVM and ICON chains with the sample application over the call services: a rollback is reported only for a call of the application that was not executed with success anywhere; every message reported is one call sent from the chain and contract named with this data, none is reported twice, and if it is a call of the application on another chain its rollback is not reported there; a call to the application that was received is rolled back only if its data is \"revertMessage\"; a recorded failure is reported or can be by anybody; with all links read to the end each call waits, succeeded, is reported or can be reported, unless a message of it was given up.", "quantifier": "all networks of C164 and all their interleavings, all histories of the applications with re-entrance, all data", "why_tests_cant": "compares what two contracts on two chains report over all histories of the network between them; the demo runs single calls", "anchors": ["e2edemo/dapp-sample/src/main/java/foundation/icon/btp/xcall/sample/DAppProxySample.java:56-113", "e2edemo/solidity/contracts/dapp-sample/DAppProxySample.sol:47-102", "javascore/xcall/src/main/java/foundation/icon/btp/xcall/CallServiceImpl.java", "solidity/xcall/contracts/CallService.sol"]}
{"id": "C173", "title": "a subscription to an ICON node hands on every notification once and in order and does not end unnoticed", "statement": "For every interleaving of the monitors of a client: if the node accepted the request, the callback is given the start, then exactly the notifications that the frames read decode to, in order, then an error only if the monitor has returned with it and it is not a normal closure; otherwise nothing. A frame that is no notification ends the monitor with that error. The table holds exactly the connections of monitors neither returned nor closed; a monitor that returned without an error was closed by somebody; a closed monitor reads at most one more frame. The btp2 receiver records every block it is sent.", "quantifier": "all histories of any number of monitors of a client: all replies, frames, failures, closings and their interleavings", "why_tests_cant": "interleavings of several goroutines over a shared table; no test of the client uses a websocket", "anchors": ["chain/icon/client/client.go:316-515", "chain/icon/btp2/btp2.go:254-314"]}
{"id": "C174", "title": "coins are neither stranded nor refunded and paid at once when message centers cannot hand packets over", "statement": "Whatever packets of the native coin service the message centers fail to hand over, because a chain between has no route or the service is not registered at the end: a transfer is refunded only if it was not paid, and every pending transfer has a packet on the way that will end it. A message center answers each message with a positive number that it cannot hand over by one error with the negated number to the network it came from, and gives up the others.", "quantifier": "all reachable states of two chains with the native coin service, all packets on the way, all states of a message center and all messages", "why_tests_cant": "the tests of the service use a mock message center and never lose an answer; the fault needs two transfers with the same number in opposite directions", "anchors": ["javascore/nativecoin/src/main/java/foundation/icon/btp/nativecoin/NativeCoinService.java:296-353", "javascore/bmc/src/main/java/foundation/icon/btp/bmc/BTPMessageCenter.java:558-637", "javascore/bmc/src/main/java/foundation/icon/btp/bmc/BTPMessageCenter.java:794-838"]}
{"id": "C175", "title": "a stream of the HTTP client gives the callback every document once and in order, and ends cleanly", "statement": "For every interleaving of the goroutine that decodes and the one that calls back: the callback is given each document of the body once and in order; the call returns the error of the decoder only after a callback for every document; after a return there are no more callbacks; no goroutine is left. Addresses are parted at the scheme, and the base of all URLs is the address with its scheme.", "quantifier": "all bodies, all ways of decoding into a value, all interleavings of decoding, handing over, callbacks and cancelling; all addresses", "why_tests_cant": "two goroutines over one value without a lock: the outcome depends on the scheduler; there is no test of the client", "anchors": ["common/http.go:52-59", "common/http.go:131-154", "common/http.go:219-274", "common/http.go:339-351"]}
{"id": "C176", "title": "native coins stay backed when the services of two chains speak through their message centers", "statement": "In every history of two chains, each with a message center and the native coin service on it, whatever else happens at the message centers: the coins of each service cover all refunds and fees due there and all tokens for them on the other chain; each pending transfer has exactly one message of the service on the way, its request, the answer, or an error with its number negated; no more is paid at one end than was settled or has a success on the way at the other; messages of the service on the way are addressed to the other network and the service there.", "quantifier": "all calls of users in any order, all orders of delivery, all states and changes of the message centers, failures of a request on the way or at the receiving message center", "why_tests_cant": "the service is tested with a mock of the message center and the message center with a mock service; the two contracts on two chains are run together on one path only", "anchors": ["javascore/nativecoin/src/main/java/foundation/icon/btp/nativecoin/NativeCoinService.java:296-305", "javascore/bmc/src/main/java/foundation/icon/btp/bmc/BTPMessageCenter.java:540-637", "javascore/bmc/src/main/java/foundation/icon/btp/bmc/BTPMessageCenter.java:809-838"]}
{"id": "C177", "title": "fees of the native coin service are taken only for transfers that succeeded, and never leave the contract", "statement": "A call changes the fees of the service only if the message center hands over the success of a pending transfer, and then by the fees of that transfer. Fees never get less: the method that paid them out is commented out, so the coins and tokens taken as fees stay with the contract whatever follows.", "quantifier": "all histories of calls and messages with any contents; for native coins all histories of two services with packets on the way", "why_tests_cant": "the tests for fee gathering are commented out together with the method; a test can show that one call does not pay, not that none ever does", "anchors": ["javascore/nativecoin/src/main/java/foundation/icon/btp/nativecoin/NativeCoinService.java:355-385", "javascore/nativecoin/src/main/java/foundation/icon/btp/nativecoin/NativeCoinService.java:436-447", "javascore/nativecoin/src/main/java/foundation/icon/btp/nativecoin/NativeCoinService.java:497-553"]}
{"id": "C178", "title": "what a JSON-RPC call makes of the answer of a node", "statement": "A call succeeds exactly if the answer has status 200 and its first document is an object without an error whose result can be stored. Errors of the node are handed on as they are, and without a success the caller's value stays as it was. Findings: the document null makes the client panic; an object without an error in a reply with another status becomes a nil error that makes the sender panic; number and version of the answer are never compared with those of the request; an answer without a result and an error is a success.", "quantifier": "all answers of the node, all values of the caller, all ways of reading JSON", "why_tests_cant": "nodes in tests answer well-formed replies; the answers that make the client panic or take a foreign reply are never sent", "anchors": ["common/jsonrpc/client.go:26-41", "common/jsonrpc/client.go:45-112", "common/jsonrpc/client.go:128-132", "common/http.go:417-428", "common/jsonrpc/type.go:17-22"]}
{"id": "C179", "title": "archives of directories hold exactly the files that are not excluded", "statement": "The archive of a directory holds exactly the files with no excluded name on their path, each once, under its path and with its bytes; one file that cannot be opened makes the call fail.", "quantifier": "all trees of files and all patterns", "why_tests_cant": "no test calls it; which file is missing, cut off or stands under the wrong name depends on the whole tree and on errors of reading", "anchors": ["common/cli/helper.go:509-566", "common/cli/helper.go:568-594"]}
{"id": "C180", "title": "the debug services send what they are asked to send and note what comes in", "statement": "A message sent with the debug service reaches the message center with the network and the service in their places and the next number; what comes in is noted. False of both: on ICON the network is given as the service and the service as the network, so the center refuses; on the EVM the method called does not exist in the message center (its number is unsigned), the event has network and service exchanged, the first number is 0, and two services that can talk answer each other for ever.", "quantifier": "all messages, all message centers, all numbers of deliveries; the selector of the method is computed", "why_tests_cant": "the debug services have no tests; a message center in a test made from the same interface would take the call", "anchors": ["javascore/debug-bsh/src/main/java/foundation/icon/btp/DebugBSH.java:33-90", "solidity/debug-bsh/contracts/DebugBSH.sol:17-76", "solidity/debug-bsh/contracts/interfaces/IBtpMessageCenter.sol", "solidity/bmc/contracts/BMCPeriphery.sol:240-247"]}
{"id": "C181", "title": "what a request of the HTTP client makes of the answer", "statement": "A request succeeds exactly if the answer has status 200 and what the caller wants can be read from it; the caller then has the whole text or the value read. Errors of the server are handed over with status and body, and after an error the caller's value stays as it was, unless a value was read in part. The body of every answer is closed: false, it is left open if the status is another one or nothing is wanted.", "quantifier": "all answers, all values of the caller, all ways of reading JSON", "why_tests_cant": "open bodies and values read in part show only with answers a test server does not give", "anchors": ["common/http.go:156-166", "common/http.go:168-197", "common/http.go:199-217", "common/http.go:417-428"]}
