# Formal model of noble-assets/dollar: design

Subject: `/repo` (noble-assets/dollar v2, Go, Cosmos SDK v0.50.13).
Technique: Lean 4.33 theorems about a hand-written executable model. No code of
`/repo` is built or run; fidelity of the model rests on the per-definition
citations (`file:lines`) and on the list of simplifications below.

## 1. Layout

| Path | Contents |
| --- | --- |
| `lean/Verif/Basic/` | finite maps (`KV`), Go slices (`Sl`), the error/panic monad (`M`) — no repository semantics |
| `lean/Verif/Model/` | the model, one file per group of Go files; every definition cites `file:lines` |
| `lean/Verif/Spec/`  | small independent specifications used in property statements |
| `lean/Verif/Lemmas/` | helper lemmas, invariants, proofs |
| `lean/Verif/Props/` | the property theorems (named in `MANIFEST.json`), each with non-vacuity `example`s |

## 2. How the code is modelled

* **State.** One Lean record with a field per `collections.Item`/`Map` of the
  keeper, plus the slices of other modules the dollar module observes: USDN
  balances and supply (x/bank), archived VAAs and posted messages (wormhole),
  collateral per warp token (hyperlane), emitted events.
* **Effects.** `M α := State → Res α` with `Res = ok a s | err e s | panic`.
  An *error keeps the state reached so far*: Go errors do not roll the store back,
  and the module ignores errors in several places (`Mint` ignores `UpdateIndex`,
  failed IBC/warp transfers are logged, `endVaultsSeasonOne` logs and continues).
  A *panic* aborts; nothing in the module recovers. The transaction wrapper
  (`runTx`) restores the old state on error and panic, as BaseApp does.
* **Numbers.** `math.Int` is `Int` (the overflow panics of `Int` and `LegacyDec` are only in `Model/Checked.lean`, `Model/CheckedVaults.lean` and `Model/CheckedAll.lean`, see C71, C85, C119 and C122);
  `QuoRaw` is truncated division with a panic on zero; `LegacyDec` is an `Int`
  scaled by 10^18 with banker's rounding in `Quo` and truncation in
  `QuoInt`, `QuoInt64`, `TruncateInt`. `int64` index decoding wraps from
  `uint64`; the portal nonce wraps mod 2^32; user counters wrap mod 2^64.
* **Slices.** The byte parsers of `types/portal` work on Go slices with length
  *and capacity*, because `bz[a:b]` is bounded by the capacity.
* **Bank.** `SendCoins` is modelled in the order of SDK v0.50.13:
  debit sender, apply the module's send restriction, credit recipient; a multi-send debits the
  input once, then restricts and credits output by output. The SDK's source is not available here,
  so this order is part of the trusted base; C108 shows that the order shows only in the holder
  statistic (C43), whatever the transfer.
  `SendCoinsFromModuleToAccount` rejects blocked recipients. Vesting locks and
  other denominations are left out here; C110 shows that they do not matter.
* **Dependencies.** No dependency's source is in this sandbox. Wherever a model reproduces a dependency (Go's standard
  library, Cosmos SDK, ibc-go, gogoproto, grpc-gateway, autocli), it does so from general knowledge of the version that
  `go.mod` names; the text was not consulted and the match is unchecked. Every such part belongs to the trusted base.
* **Environment.** Everything outside the repository is a parameter. Static:
  address codec, module-address hash, escrow addresses, keccak, hex decoding,
  blocked addresses (`Cfg`). Per transaction: block time, VAA verification,
  success/failure of IBC and warp transfers, existing channels, enrolled routers,
  Go map iteration order (`Env`). Histories quantify over all of them.

## 3. Property plan

| Id | Model parts | Proof method |
| --- | --- | --- |
| C01 | `Model/Math` | integer arithmetic; order-theoretic specification (greatest/least) |
| C02 | whole system | relational invariant (`index` only grows) per message, induction over histories |
| C03 | `updateIndex` | symbolic execution with frame lemmas for the distribution part |
| C04 | whole system | inductive invariant, including error states |
| C05 | whole system + ghost counters | inductive invariant |
| C06 | whole system | inductive invariant |
| C07, C46 | `claimYield`, `getYield` | symbolic execution |
| C08 | `sendRestriction`, whole system | symbolic execution + invariant |
| C09, C10, C21, C31 | all message handlers | decision logic, induction over histories |
| C11 | `deliver`, `handlePayload` | decision logic over all byte strings |
| C12 | system with VAA archive | induction over histories |
| C13 | `mint` | symbolic execution with frame lemma for `updateIndex` |
| C14 | `transfer` + parsers | round-trip lemmas composed |
| C15 | system | invariant on posted messages |
| C16–C18 | `Model/Ntt`, `Model/Payload` | round trips and totality |
| C19 | parsers | expected false: negation with witness + partial theorem (which parsers are panic free) |
| C20 | `transfer` | expected false: negation with witness + partial theorem |
| C22, C23, C26, C27, C28 | vaults + system | joint inductive invariant |
| C24 | `unlock` | progress from the invariant of C22 |
| C25, C47 | `unlock` | induction over the position list |
| C29 | `claimRewards` | arithmetic on banker's rounding |
| C30 | `lock` | symbolic execution, both directions |
| C32 | `pendingRewardsByProvider`, `claimRewards` | agreement of two folds |
| C33 | `handleSeasonTwo` | symbolic execution |
| C34, C35 | external yield loops | induction over the recipient list |
| C36 | `mint`, hyperlane loop | expected false: witness + partial theorem |
| C37, C38 | IBC wrapper/middleware | decision logic |
| C39, C40 | genesis, loops | round trip; permutation invariance |
| C41 | `updateIndex` | expected false: reachable witnesses + exact characterisation of the panic + bound on the shortfall by induction over histories |
| C42 | accounting identity; all principals together, with one extra unit per rounding, are worth the balances | expected false in general: witness + exact shortfall + bound by the number of roundings in the history |
| C43 | `sendRestriction` | exactness is false: witness + one-sided invariant (`Lemmas/Holders`) + a bound on how far it is behind (`Lemmas/Missed`, `Spec/Missed`) |
| C44 | `sendCoins`, `multiSend` | symbolic execution, induction over the outputs |
| C45 | migration, also on the encoded bytes of the store (`migrateDisk`) | decision logic; codec round trip of C73, store contents of C79 |
| C48 | `setYieldRecipient` | decision logic |
| C49 | `unlock` | progress from the invariants of C22, C27, C28 |
| C50 | `handleSeasonOne` | symbolic execution with exact rounding |
| C51 | administrative handlers | decision logic, both directions |
| C52 | `transfer` | progress + symbolic execution |
| C53 | `bankSend`, `bankMultiSend` | progress from C04, both directions |
| C54 | whole system | inductive invariant with a ghost count of roundings (`Lemmas/Debt`) |
| C55 | whole system | inductive invariant, one case per message (`Lemmas/Kept`) |
| C56 | whole system | per-message frame lemma, induction relating two histories |
| C57 | encoders, `transfer` | independent layout, list algebra |
| C58 | `lock`, `unlock`, `queryPositions` | ledger over histories; every other message keeps all positions |
| C59 | query functions, settings messages | last accepted write over histories; statistics from C05, C06, C26, C27, C43 |
| C60 | external yield, retry amounts, IBC packets | ledger per channel, kept by every message and by every swallowed failure |
| C61 | all messages and events | an indexer that replays the log; per message, the emitted events explain the change |
| C62 | yield events, supply, total yield | carried along with C61; the full claim is refuted by a failing index update |
| C63 | events of lock, unlock, deliver | induction over the loop of unlock with the stored positions; inversion of delivery by content |
| C64 | two configurations, transfer and deliver | composition of the codec round trips, the posted bytes and the acceptance condition |
| C65 | Hyperlane statistics, retry amounts, dispatched messages | relational invariant (kept on success, one-sided on failure) through the index update, then induction over the history; a witness shows that the condition of the equality is needed |
| C66 | prefixes, key codecs, indexed map, scans (Model/Store) | injectivity and order of the encodings; a representation invariant between the byte store and the logical maps, kept by every write; scans compared as sorted lists |
| C67 | stake and worth of a group of users | the per-account rounding bound of C54 plus: the principal of a group grows only by inflow (case analysis over all messages); induction over the history |
| C68 | batches of ClaimYield | closed form of a batch by induction (a claim leaves the other reports alone, C46), then permutation of sums; witness by evaluation |
| C69 | batches of bank sends | closed form of a batch by induction (acceptance condition of C53 and exact effect of a move), then permutation of sums |
| C70 | supply, total principal, deliveries | invariant k units of principal bound total principal and supply (case analysis over all messages; index updates set the supply to the value of the total principal), then induction; bounds of the wire format from the parsers |
| C71 | Principal moved per message ≤ supply; no 256-bit overflow | `Near`/`Paid` predicates kept by every handler and by every part of an index update (also when it fails half-way and the error is ignored); then C70's bound on the supply; `Model/Checked.lean` has the conversions with the overflow panic, shown equal to the unchecked ones |
| C72 | `Model/Tx`: several messages, fee by the ante handler | induction over the messages; a transaction equals one of three histories of single messages, so `Reachable` is closed under transactions, and every history of messages is one of transactions |
| C73 | `Model/Proto` (generated template), `Model/Wire` (schemas) | round trip of varints by induction, of fields by kind, of messages by induction over the schema; sizes by induction; the assumption on `big.Int` text is discharged for Go's reader (`Model/GoInt`, C99) |
| C74 | the same | invariants of the reading loops (indices stay within the bytes and grow, so the fuel suffices); unknown fields by the same induction as C73 |
| C75 | messages of the four services | C73's round trip per message type; the truncated chain id from the conversion of the field, a collision by evaluation |
| C76 | every handler | a predicate "does not panic and leaves the index" with rules for each monad operation; the positive index and the well-formed positions of reachable states discharge the divisions and the coins; exact conditions of Transfer and Lock by following the code |
| C77 | Transfer, Unlock, the burn and the send restriction | induction over the portions with the exact success condition of a transfer (C52) and its effect; the unlock by C24, C25 and C58; the exit plan is an explicit list of messages |
| C78 | endVaultsSeasonOne and everything it calls | the per-user totals are characterised as sums over the positions; induction over the users, each full unlock leaving the positions and the claimable yield of the others alone; without funds: no function of the unlock panics and only flexible positions are written |
| C79 | the whole store as bytes (`Model/Disk`), read back item by item and by walking the collections | the entries of a state have distinct keys (C66), so the store holds exactly them; every value decodes to itself (C73); walks are compared with the sorted maps of the state |
| C80 | vault records under other users' withdrawals (`rewardsAfter`, `userReward`), queries | invariant `ShareKept` (position stored, cross-multiplied share inequality) through `OneOk`/`LoopOk`, index updates and locks; then the rounding bounds of `share_bounds`; sum over sorted records |
| C81 | `exportGenesis` edited in its settings, then `initGenesis`; the season flag; `endVaultsSeasonOne` | the amounts by the round trip of C39, settings by `Upgrade`, so the result is `Reachable`; with the flag set a frame argument over all messages (`Frozen`); the sweep equals a history of Unlock messages |
| C82 | every field of the state against its Go type (`Spec.Fits`) | bounds S = 2^88 * deliveries and T = S * messages kept by every handler (`NRange`): statistics and rewards grow by at most the supply per message; keys of routes and positions come from typed messages (`Keyed`, `Placed`); C79 then needs no assumption on ranges |
| C83 | the keys of external yield, waiting amounts and packets under way | the same key invariant with "has a yield recipient", which no message removes |
| C84 | a network of n chains, each a copy of the model with its own configuration; honest guardians as a hypothesis on the VAAs that verify (`Spec/Network.lean`) | invariant over interleavings: every posted message stems from a transfer, the delivered ones of each pair of chains form a set of sequence numbers whose digests are archived; sums over that set against sums over all posted messages |
| C85 | the three decimal computations with the overflow panics of `LegacyDec` (`Model/Checked.lean`) | bounds on the quotient and product from C70 (supply), C82 (rewards, positions) and C65 (collateral); 2^127 * 10^18 * 2^127 < 2^315 |
| C86 | `updateIndex` and everything it calls, `deliver` (`Spec/Distribution.lean`: what has to be paid, what the routes need) | forward and backward execution of every step with `wp` (`Lemmas/Live`), so that each error is traced to one condition; the covered case by summing over all accounts |
| C87 | every message handler (`Spec/Agree.lean`: states that differ only in records, outcomes) | relational execution: each function, run from two states that agree, gives the same outcome and agreeing states (`Lemmas/Blind`, `Lemmas/BlindExec`) |
| C88 | every message handler (`looksAt` in `Spec/Agree.lean`: what a message may read) | the same relational lemmas with the settings as a parameter |
| C89 | `handlePayload`, `mint`, `updateIndex` | relational execution for states that differ in archive and log (`Lemmas/Relog`); for the converse an announcement is encoded and parsed back (C16–C18) |
| C90 | `Unmarshal` of all messages (Model/Proto, Model/Wire) | every field that `Unmarshal` leaves behind is in the range of its kind (induction over the fields read), hence every decoded message is in range, meets the hypothesis of C82 and is read back when re-encoded. |
| C91 | `InitGenesis`, `DefaultGenesisState` | import of the default genesis with edited settings; acceptance as an equivalence, and the result satisfies `Spec.Initial`, the starting point of all history theorems. |
| C92 | The transactions of a block, permuted; `Spec/Independent.lean` says when two are independent | `exec_on`: what a message of a user changes is a sum (`Effect`) that depends only on the spender's own entries and the index (`Lemmas/Commute.lean`); sums commute because the stores are sorted; success depends on the spender's entries by the exact conditions of C07, C30, C52 and C53; induction over the permutation with C87 |
| C93 | balance and principal of the minting account, through every message and a failing index update | induction over reachable states |
| C94 | the accounts each message may round against, for every message incl. an index update with its vault and external distributions | list of roundings kept as an invariant along histories, per account; then C34 for what is sent on |
| C95 | every message that moves coins of the warp account, dispatches, or takes and adds Hyperlane retry amounts | slack of the warp account over dispatched and waiting amounts kept as an invariant, the loop over routes with its shares (C35) |
| C96 | `ibcReceive`, `packetFailed` in any reachable state | progress of the send from the escrow, which C34 shows covered |
| C97 | the loop over routes with the collateral read before it | per token slack of collateral over dispatches; false for two identifiers of one token (witness), hence partial |
| C98 | as C95, with the recorded collateral instead of the dispatches | as C95; false after a late failure (witness), hence partial |
| C99 | the number parser of Go (`big.Int.SetString` with base 0) with all its notations; specification `digitsAs` on texts of digits and, for all texts, the integer literals of the Go language (Spec/Numbers) | induction on the digit loop, from the left for digits and from the right for literals with underscores; decimal text by induction on the number |
| C100 | unlock, reward records, query for pending rewards (Model/Vaults, Model/Queries) | the upper bound that goes with C80: an invariant in cross-multiplied form says that a record of a closed cycle has not gained more than one unit per payout of others on the position's share; induction over the unlock loop and the history, with the number of payouts read off the event log. No record is opened for a cycle that is over. |
| C101 | reward records from their opening on (Model/Vaults, Model/Dollar) | an induction principle for records: whatever survives a payout survives every message. Applied to proportionality (two-sided, cross-multiplied), to the last payout, and, for the negative part, to records without a total, which nothing changes any more. |
| C102 | the warp account over whole histories, and one announcement (Model/Portal, Model/Dollar, Model/IBC) | C94 gives the claimed yield from the balance and the number of roundings on exits, C97 and C98 tie balance and collateral to the vouchers, C35 gives the portion; the inequalities are multiplied out. What has no recipient: C35 for the announcement, then C95's room for the rest of the history. |
| C103 | `Model/Stats2`: the v2 Stats query with light clients and routers | the Go map as in C59; the dispatched messages from C35 |
| C104 | the two pending-rewards queries over whole histories (Model/Queries, Model/Vaults) | records and flexible total against the sum of the positions: below by the vault invariant, above by one unit per payout (invariant in `Lemmas/Phantom`, counted in the event log); sums over users, positions and records are exchanged |
| C105 | `Marshal`, `Size`, `Unmarshal` of the query answers with slices, nested messages and maps (Model/Proto2) | the template is modelled once over schemas; induction over fields, elements and entries; bounds of every index for arbitrary bytes |
| C106 | the same encoders, with the order of map entries left open (Model/Proto2, Model/Queries, Model/Stats2) | two orders of a map with two entries are read back as different lists (C105), so their bytes differ; with at most one entry there is one order |
| C107 | the commands of client/cli as functions from arguments to messages or answers (Model/Cli) | lower-casing is inverted letter by letter; keys of known providers are injective; the settings theorems C48 and C59 |
| C108 | the bank of utils/mocks and a multi-send that asks first (Model/BankOrder) beside `sendCoins`/`multiSend` | two-run relation: the restriction reads balances only for the statistic; induction over the outputs |
| C109 | existing state machine; the records the loops of `unlock` walk through are counted in the specification (`unlockReads`) | invariant over `exec`: keys of positions and rewards stay within a given set (Lemmas/Work), then subset-of-distinct-keys counting |
| C110 | x/bank `SendCoins` and `InputOutputCoins` of sets of coins with vesting locks (Model/Coins) on top of the module's restriction | induction over the coins and the outputs; the USDN component of every stage is the single-denomination stage |
| C111 | the JSON text of a packet, writer (ibc-go `GetBytes`) and reader (jsonpb), Model/PacketJson | structural: reading a written character, string, member, object; then the wrapper and the handlers on texts equal the ones on decoded packets |
| C112 | the genesis file: JSON tokens and values (Model/Json), the messages of the genesis state with base64, dates, enums and big integers (Model/GenesisJson) | the reader inverts the writer token by token for any white space between tokens; per message the field reader is evaluated on the written fields, with one field removed or renamed for the claims about wrong files; then C39 |
| C113 | the address codec: bech32 with the SDK's length limit, bits, check sum, case rules (Model/Bech32) | the check sum is linear over xor; a change within six groups moves the register by a non-zero amount that later steps cannot cancel; bits regroup without loss; the spelling of a signer is carried through each user message by a two-run relation that ignores the log (Lemmas/Spelling) |
| C114 | ABCI events: field names, JSON of the fields, sorted attributes, UTF-8 as Go reads and writes it (Model/Events) | the decoder inverts the encoder character by character; fields are found by name in the sorted map; every kind of field is injective; two logs that look alike are followed in step by the indexer of C61, which learns the same from both |
| C115 | sign documents: names and fields of the messages as amino JSON (Model/Sign) | the JSON writer is injective (C112); fields are found by name in the sorted object; each message type is compared with each other one; handlers refuse a missing amount |
| C116 | the REST routes: the 20 patterns as generated, the matcher and the multiplexer of grpc-gateway, its number and enumeration parsers (Model/Rest) | splitting at slashes and at the last colon is inverted; each kind of pattern is solved once; patterns are pairwise apart by their literal beginnings and lengths; routes are found by membership, not by order |
| C117 | acknowledgements as text: writing, reading with the order of the oneof as a parameter, the middleware, and the transfer application it wraps (Model/AckJson) | both canonical texts are read back for every order; a text that is accepted equals the text of what was read, hence is canonical; the effect of the canonical ones is that of the system model's two messages |
| C118 | the commands of `AutoCLIOptions` with their arguments and fields, the readings of an argument, the bytes sent and their decoding on the chain (Model/AutoCli) | relational specification of all lines (Spec/AutoCli); the commands are prefix-free; marshalling by a client that does not know the chain's types, read back field by field (induction over the schema); texts by the literals of C99 and the base64 and hexadecimal codecs |
| C119 | MsgLock, MsgUnlock and the pending-rewards queries once more, with the overflow panic at every operation (Model/CheckedVaults) | equality with the main model, function by function: a user's positions sum to at most the supply (distinct accounts), a record pays at most its rewards and one per unit, records and positions are at most the messages (C109), stored numbers by C82's ranges, kept through every round of an unlock |
| C120 | the JSON bodies of the 20 REST answers: field names, quoted numbers, enumerations, decimals, maps and lists as jsonpb writes them (Model/RestJson) | a separate client (Spec/RestJson) that reads a body by field names; body read back through the parser of C91's JSON; ranges of the numbers of an answer from C82, C119, C70 and C71; bare numbers by a walk over the tokens |
| C121 | codes and codespaces of the three error tables and which of them each handler returns (Model/Codes, on top of the handlers of `exec`) | for every message the cascade of its checks is derived (Props/C121); the rest of every handler fails only with errors that are not registered here (`Quiet`, Lemmas/Codes); the cascade is compared with the table of causes of Spec/Codes |
| C122 | every other message once more, with the overflow panic at every operation, the sums of x/bank and warp included, and the vault handlers of C119 on top of the checked transfers and claims (Model/CheckedAll) | equality with the main model: an invariant on all numbers (`Tame`, Lemmas/CheckedAll) that is widened by a fixed amount at every transfer is carried through each handler, loops over recipients, routes, positions and outputs included; its start comes from C70, C71, C82, C85, C34 and C109, and the collateral of a warp token grows by at most 2^128 per message |
| C123 | the log of the main model in the encoding of C114 (Model/Events), read by an explorer whose only input is the JSON text (Spec in Props/C123: `readShown`, `sequence`, `observe`) | every event a handler adds is shown to have numbers within its fields (`exec_readable`, from the bounds of C122, C70 and C71), then C114 reads each event back and C61 replays them; the untyped events are never taken for typed ones |
| C124 | a node whose inputs, store and answers are bytes or text and whose integers are bounded (Model/Node, on top of Model/Wire, Model/Disk, Model/CheckedAll, Model/RestJson, Model/Events) | induction over the inputs: decoded messages are well typed (C90), the stored bytes are read back (C79, C82), the checked handlers agree with the unchecked ones (C122); then C120 and C123 for what is shown, C75 for what clients send |
| C125 | the gRPC services of the queries: method names, requests and answers as bytes (Model/Grpc, on top of Model/Answers, Model/Proto2, Model/Wire), asked at the node of C124 | requests and answers are read back (C73, C105); the answers of a reachable state are in range (C82, C120) and their maps have distinct keys (C106); then C124_state; any other order of a map's entries is read back too, as the hypotheses do not depend on the order |

No property of the list is outside the model.

The full statement of every property is in `properties.jsonl`; `MANIFEST.json` names its theorems.
A name ending in `_partial` proves less than the property says; the note in `MANIFEST.json` says what
is missing. For C19, C20, C36, C40, C41, C42, C43 the full property is *false of the code*; beside
the partial theorem stands a theorem exhibiting a reachable counterexample.

## 4. Trusted base

1. **Lean 4.33.0's kernel.** No `sorry`, `admit`, `native_decide`, `bv_decide`, `unsafe` or added
   axiom. Concrete witnesses and non-vacuity examples are checked with `decide +kernel`, which the
   kernel evaluates.
2. **Axioms.** Every theorem depends on a subset of `propext`, `Classical.choice`, `Quot.sound`.
   `AXIOMS.md` lists them theorem by theorem (output of `#print axioms`).
3. **Reading of the code.** The model was written by hand from the Go text. Each definition cites the
   lines it models; a simplification is stated in the same comment.
4. **Assumed behaviour of code outside the repository** (section 5) and the well-formedness of the
   configuration, `Cfg.WF` in `Model/System.lean`: module addresses do not collide (including the
   addresses of flexible positions, which are module addresses of a derived name) and differ from
   escrow addresses, escrow addresses are injective in the channel, the manager address has 20
   bytes, bech32 encoding is injective and decoding inverts it up to case (proved of the modelled codec,
   `C113_wf`), and the dollar module account is a blocked recipient. Collision freedom idealises truncated SHA-256: no real 20-byte
   hash is injective on all names, so the theorems speak of executions in which no collision is
   found. `Demo.cfg_wf` shows a concrete configuration meeting all of it.
5. **Who signs.** `Msg.SignedByUser`: coins are spent and yield is claimed by accounts other than those
   of the dollar module, the warp module and the IBC transfer escrows (these have no key, and only the
   code modelled here spends from them). People, contracts and the accounts of all other modules are
   allowed; other modules may also move coins through the bank keeper (`Msg.keeperSend`: fees, deposits,
   pools), from any account but those named and to any account but the dollar module's mint account.
   Administrative messages may be signed by anyone, in particular by a governance module account.
   Relayed messages (deliveries, packets and their acknowledgements, warp receipts) may come from anyone.
6. **Which states.** `Initial` is a chain without USDN and arbitrary settings; `Reachable` adds any number of
   messages and, between them, upgrades (`Upgrade`: every setting, in particular the season flag that no message
   can change, becomes anything; amounts stay). Theorems about one fixed stretch of messages name the history.
7. **Transactions are sequential**, and an error or panic restores the state before the transaction
   (BaseApp). Most theorems take one message per transaction; C72 proves that transactions with several
   messages and with fees reach no other states. Block-level concurrency does not exist in this code.

## 5. What is modelled and what is not

| Code | Model | Remarks |
| --- | --- | --- |
| `keeper/math.go` | `Model/Math` | all |
| `keeper/keeper.go` | `Model/Bank`, `Model/Dollar`, `Model/Portal`, `Model/Store` | `SendRestrictionFn`, `GetYield`, `Deliver`, `HandlePayload`; the collections with their prefixes, key codecs and indexes (`Model/Store`) and their contents (`Model/Disk`); the remaining constructor wiring not |
| `types/keys.go`, `types/vaults/keys.go`, `types/portal/keys.go` | `Model/Store` | the store prefixes |
| `keeper/msg_server.go` | `Model/Dollar` | all: ClaimYield, SetPausedState, UpdateIndex with both seasons and both external routes, Mint, Burn |
| `keeper/msg_server_v2.go` | `Model/Dollar` | all: SetYieldRecipient |
| `keeper/msg_server_vaults.go` | `Model/Vaults` | all: Lock, Unlock, SetPausedState, ClaimRewards, endVaultsSeasonOne |
| `keeper/msg_server_portal.go` | `Model/Portal` | all |
| `keeper/query_server*.go` | `Model/Queries`, `Model/Stats2` | values of the queries; nil-request checks and gRPC plumbing not (there is no pagination in this code) |
| `keeper/state*.go` | inside the callers | each getter and setter is a map access of `State` |
| `keeper/migrations.go` | `Model/Genesis.migrate1to2` | the statistics conversion |
| `types/portal/*.go`, `types/portal/ntt/*.go` | `Model/Ntt` | all encoders and parsers, with Go slice capacity |
| `genesis.go`, `types/*/genesis.go` | `Model/Genesis` | init, export, default; `Validate` only where it panics |
| `isc4_wrapper.go`, `ibc_middleware.go` | `Model/IBC`, `Model/PacketJson` (the JSON of a packet), `Model/GoInt` (the reading of integers from text, `math/big` `SetString(s, 0)`) | SendPacket, OnAcknowledgementPacket, OnTimeoutPacket; the passed-through callbacks are the identity |
| x/bank, IBC transfer, Hyperlane warp, Wormhole | `Model/Bank`, `Model/BankOrder`, `Model/Coins`, `Model/IBC`, `Env` | only what the module observes: balances, escrow accounts, packets in flight, collateral, archived VAAs, posted messages |
| `types/tx.pb.go`, `types/v2/{tx,dollar}.pb.go`, `types/vaults/{tx,vaults}.pb.go`, `types/portal/{tx,portal}.pb.go` | `Model/Proto`, `Model/Wire` | `Marshal`, `Size`, `Unmarshal` and `skip` of the messages and stored values; getters, descriptors, events and genesis types not |
| `types/{v2,vaults,portal}/query.pb.go` | `Model/Proto2` | `Marshal`, `Size`, `Unmarshal` of the answers that hold slices, messages or maps; requests and scalar answers are instances of `Model/Proto` (`Model/Answers`); a `LegacyDec` is its text, bounded by 256 instead of 315 bits; the two `uint32` fields (portal nonce, chain id of a request) keep the lowest 32 bits of what is on the wire (`decWord`) |
| `client/cli` | `Model/Cli` | arguments to messages and queries; flags, signing and printing not |
| `module.go`: `ValidateGenesis`, `InitGenesis`, `ExportGenesis` | `Model/GenesisJson` | the JSON codec (jsonpb) is modelled from its documentation: strings are read and written as characters with the escapes of Model/Json, numbers as decimal literals; the time of a position is kept to the second |
| the address codec (`address.Codec`, bech32) that `module.go` is given | `Model/Bech32` | from BIP-173 and the SDK's documentation; regrouping of bits is done on a list of bits; upper and lower case of ASCII only; the writer is not cut short for an empty address |
| `event.Service` (SDK `EmitTypedEvent`, `EmitKV`), `types/**/events.pb.go` | `Model/Events` | from the SDK's documentation; `msg_index` is not added; UTF-8 bounds are checked on the character |
| `proto/**/tx.proto` (`amino.*` options), `types/**/codec.go` (`RegisterLegacyAminoCodec`), `x/tx/signing/aminojson` (SDK) | `Model/Sign` | from the SDK's documentation; fee, memo, account and chain of the sign document are not modelled |
| `types/**/query.pb.gw.go`, `module.go` (`RegisterGRPCGatewayRoutes`), grpc-gateway v1.16.0 `runtime` | `Model/Rest` | as known, unchecked, from the published source of grpc-gateway; GET only; the router in front, percent-decoding is not modelled; the JSON of the answers: next row |
| `ibc_middleware.go:117-128` on bytes, ibc-go v8.7.0 `Acknowledgement` and the transfer application's `OnAcknowledgementPacket`, gogoproto v1.7.0 `jsonpb` on a oneof | `Model/AckJson` | from the published source; which of two members of a oneof stays is a parameter (Go map order); `{"result":null}` is read as the empty result; gas is not modelled |
| `module.go` (`AutoCLIOptions`), cosmossdk.io/client/v2 v2.0.0-beta.8 `autocli`, cobra, pflag | `Model/AutoCli` | as known, unchecked, from the published source of those packages; lines with options (words with a leading dash), help, signing, sending and printing are left out |
| `keeper/msg_server_vaults.go:48-339, 363-436`, `keeper/state_vaults.go:233-280`, `keeper/query_server_vaults.go:74-156` (overflow panics) | `Model/CheckedVaults` | the same functions with a panic at every `Add`, `Sub`, `Mul` and decimal operation they write; `SendCoins` and `claimModuleYield` are those of the main model, the end of season one is not repeated |
| `types/**/query.pb.go` (the answers' fields and `json` tags), `keeper/query_server*.go`, jsonpb of gogoproto with `OrigName` and `EmitDefaults` | `Model/RestJson` | maps in the order of the answer instead of sorted (C120_read holds for every order); status codes and error bodies, white space and headers are left out; fractions of a second are free |
| `types/errors.go`, `types/vaults/errors.go`, `types/portal/errors.go`, and the places in `keeper/*.go` that return these errors | `Model/Codes` | errors of other modules and unregistered ones (`fmt.Errorf`) are one class `other`; `ABCIInfo` of cosmossdk.io/errors is taken to report codespace and number of the registered error |
| `keeper/keeper.go:188-292, 307-459`, `keeper/msg_server.go:52-211, 213-493`, `keeper/state.go:93-135`, `keeper/msg_server_portal.go:48-174`, `ibc_middleware.go:64-134` (overflow panics) | `Model/CheckedAll` | the same functions with a panic at every `Add`, `Sub`, `Mul` and decimal operation; a `SafeAdd`/`SafeSub` whose error is returned counts as a panic (stronger), the one in `GetYield` gives zero as in the code; the debit of a balance, the sum of the outputs of a multi-send and the ghost count of vouchers are not checked; the end of season one is not repeated |
| a node as a whole: `module.go:154-165`, `keeper/state*.go`, baseapp | `Model/Node` | the whole store is read and written for every message; actions of other modules are not taken apart into bytes; a transaction carries one message (C72 has several) |
| the gRPC services of the queries: `types/{,v2,portal,vaults}/query.pb.go` handlers | `Model/Grpc` | transport, interceptors and status codes are left out: a call has bytes or fails; texts are strings of bytes |
| rest of `module.go`, `simapp/`, `e2e/`, `utils/`, `api/`, other `*.pb.go` | not modelled | wiring, generated code, tests |

Not modelled, with the consequence for the theorems:

* the 256-bit bound of `math.Int` (a panic beyond it): the main model is unbounded. C122 proves that every handler with the
  panic at every operation (Model/CheckedVaults, Model/CheckedAll) does the same as the main model in every state of the first
  2^39 messages, so within these the theorems hold of the bounded integers too; C82 shows that every number stored during the
  first 2^80 messages fits its Go type;
* gas and delegated coins; other denominations and vesting locks appear only in Model/Coins, and C110 shows that
  they do not matter to the module;
* transactions are decoded by the SDK, which also rejects unknown fields. The
  state of the system model is a record of maps; C73 proves the value encodings and C66 that the byte-keyed store with its prefixes, key codecs and
  indexes implements those maps and scans. The order of Go maps is `Env.order`;
* failures of the store itself.

## 6. Disagreements between the properties one would expect and the code

Each is proved of the model, with a reachable witness where it is a counterexample.

* **C19.** The transceiver parser has no length checks: malformed input panics, and a slice whose
  capacity exceeds its length is read past its length. `DecodeTokenPayload` discards parse errors and
  then slices a nil recipient: it panics. The transaction is rolled back, so no funds are at risk.
* **C20.** Setting a bridging path to unsupported has no effect: `Transfer` only checks that the
  key exists. So a path can never be closed: once it and a peer were set, only the pause of the
  portal, the form of the request and the sender's funds decide, in every later state
  (`C20_path_never_closed`).
* **C36.** `Mint` ignores the error of `UpdateIndex`. When the Hyperlane part fails after retry
  amounts were taken, the effects before the failure stay and the retry amounts are gone.
* **C62.** For the same reason, a token delivery whose index update fails mints yield and raises the
  index without an `IndexUpdated` event. The receipt still quotes the new index (C61), but an indexer
  cannot know how much yield was minted.
* The statistic `FlexibleTotalDistributedRewardsPrincipal` is increased by the reward *amount*, not by a
  principal, and the `PositionUnlocked` event of a flexible position reports the amount plus the yield
  claimed with it; C61 states both as they are.
* **C41.** `UpdateIndex` computes a coin that can be negative, and then panics, so the index cannot
  be raised by small steps until it is large enough. Transfers out round principal up and so shrink
  the total principal faster than the supply; a delivery naming the yield account as recipient
  does it at once. `C41_shortfall` bounds the shortfall by the value of one unit of principal
  per transfer out since the last successful update plus the tokens delivered to the yield account.
* **C42.** Principal moved by a transfer is rounded up for both sides. At index 3, sending one unit
  lets the recipient claim two. The sum of claims can thus exceed what the yield account holds; the
  theorems bound the excess: by the losses in the state, and by one unit of principal per rounding in the
  history (`C42_bound_partial`).
* **C86.** An index announcement fails when the yield account cannot pay the vaults, the escrow accounts
  and the warp account. By the rounding of C42 a user's one-unit IBC transfer at index 3 suffices
  (`C86_dust_blocks_announcement`), until an announcement brings enough new coins.
* **C43.** The holder count misses accounts that become holders by a yield claim or whose balance is
  emptied by a multi-send. It never counts too many. `C43_missed_partial` bounds what it misses, transaction by
  transaction; the bound is attained.
* **C39, C40.** Exported genesis keys are joined with "/": identifiers containing "/" are cut on
  import; an unknown provider number is accepted by `SetYieldRecipient` and comes back as IBC; when two
  exported keys collide the import depends on the order of a Go map. The default genesis has an
  empty collector and panics on import.
* **C112.** `Validate` of the genesis state accepts everything that can be read. A file without the `index` is imported
  with index 0 (not the default 10^12), after which every transfer panics with a division by zero; a file without the
  collector passes the validation and panics on import.
* **C113.** The authority and the portal owner are compared as text, while users are compared as accounts: the upper case
  spelling of the authority's own address is refused. An owner may hand over to another spelling of their own account, which the
  check for handing over to oneself does not notice; from then on only that spelling works. Bech32 does not catch insertions
  (`C113_longer`), so a text can be wrong by two inserted letters and still name an account, of 21 bytes.
* **C114.** The `transfer_sent` events carry the recipient and the digest as raw bytes in a text attribute. JSON replaces bytes that
  are no UTF-8 by U+FFFD, so that the digest shown by a node cannot be recovered and different ones can look alike
  (`C114_digest_lost`); the typed event `USDNTokenSent` has both in base64. The source token in it is the denomination after 27 zero
  bytes.
* **C115.** `destination_chain_id` of `MsgTransfer` is a `uint32` on the wire with the cast type `uint16`. A wallet shows and signs, say,
  65538, and the chain sends to chain 2 (`C115_chain`).
* **C116.** A path that ends with a colon is answered as if it did not: `.../yield_recipient/IBC/a:` asks for `a`. A last segment
  whose only colon comes first is not found. `.../destination_tokens/010` asks for chain 8. Percent-encoding a slash does not help:
  identifiers with slashes have no path (`C116_slash`).
* **C117.** `OnAcknowledgementPacket` acts on an acknowledgement before the wrapped application has accepted it, and does not
  compare the bytes with the canonical ones as the application does (ibc-go's fix for non-deterministic acknowledgements).
  For `{"result":"AQ==","error":"x"}`, which only a malicious counterparty writes, jsonpb keeps the member that Go's map
  iteration yields last. So one node writes the retry amount and another does not before both fail (`C117_undetermined`).
  The state stays the same (`C117_same`), but the gas used differs, and CometBFT hashes the gas used of every transaction: nodes could
  disagree about the block. Comparing the bytes first, or calling the wrapped application first, would remove this. The
  pairing of queueing and refund rests on two checks of the application (`C117_needs_bytes`, `C117_needs_empty`).
* **C118.** The command line passes an amount on as text, so `0100` is sent as octal and locks or bridges 64 (`C118_octal`), and it accepts
  chain identifiers of 32 bits, of which the chain keeps 16: `65538` is chain 2. Bytes are read as a file name, then as hexadecimal, then as
  base64. Base64 that happens to be hexadecimal is misread (`C118_ambiguous`), and `0x` before the hexadecimal of an odd number of bytes is
  taken for base64 (`C118_prefix`). The account of `principal` and `yield` may be a key name; the provider of the vault queries may not.
* **C49.** A flexible unlock first claims the yield of the position account; it fails if the yield
  account cannot pay it, although the position itself is covered.
* **C35.** The Hyperlane share is computed through an 18-decimal fraction and can lose a unit per
  route: 300000 split 2:1 gives 199999 and 99999. The rest stays with the warp module.
* **C75.** `destination_chain_id` and `chain` are 32-bit fields on the wire but `uint16` in Go. The
  generated decoder drops the upper bits without an error: a transfer to chain 65538 is executed as one to
  chain 2, and likewise `SetPeer` and `SetBridgingPath`.
* **C68.** When the yield account is short, claims are served in the order in which they arrive.
* **C101.** In season one the yield of both vaults is recorded for the flexible principal locked at that moment, even
  when that is zero. Such a record, and one whose last holder leaves while its cycle is running, is never paid to
  anyone: no message or upgrade of settings changes it again, and its coins stay in the flexible vault's account
  (where they go on earning yield for later records).
* **C102.** The yield of the warp account is claimed at every announcement and divided among the routes with a
  recipient. If none of them has collateral, the yield stays in the warp account and is never distributed. If some
  routes have no recipient, the yield of the coins on them goes to the recipients of the others.
* **C97.** Hyperlane identifiers are compared as strings, tokens by the number encoded in them. If two
  identifiers of one token (say, different letter case) have recipients, the second dispatch of an update
  overwrites the collateral raised by the first, and the last vouchers cannot be redeemed.
* **C98.** `RemoteTransferCollateral` is called without a cached context. If it fails after it raised the
  token's collateral, the module keeps that booking and dispatches the amount again at the next update, so
  the recorded collateral exceeds the coins (and the token's share of the yield grows).
* `SetYieldRecipient` checks neither the denomination of a warp token nor that the recipient can be
  decoded.
* `endVaultsSeasonOne` is called by nobody at this commit, so season one never ends by a message
  (`C10_fixed_settings`).
  Only a genesis import sets the flag. A flexible position that is still there when it is set keeps its
  coins but can no longer be unlocked by any message (`C81_stuck`).
* `Transfer` accepts a zero amount, panics on amounts of 2^63 and above while emitting the event, and
  on addresses longer than 32 bytes; its nonce wraps after 2^32 messages (C15 assumes fewer).
* The queries `Peers`, `YieldRecipients`, `RetryAmounts` and version 2 `Stats` are marked `module_query_safe`,
  which promises answers that are the same on every node, so that other modules may ask them inside a
  transaction. Their answers hold Go maps, and the generated code writes the entries in the order of a loop over
  the map, which the runtime randomises: with two or more entries the bytes differ from node to node
  (C106; an interchain account that asks such a query would split the chain).
* **C121.** Three codes do not say what their names suggest (none is a safety problem): the pause switch of
  `dollar` answers a wrong signer with the code of `dollar/vaults` (keeper/msg_server.go:76); a second
  lock in the same vault and second is answered with "invalid vault type" (keeper/msg_server_vaults.go:83);
  `ErrInvalidRequest` is registered with number 0, which means success, but only queries return it.

## 7. Seeded bugs

`seeded/LOG.jsonl` has one line per edit of the model in a scratch copy: the definition, the edit as
old and new text, the claim it falsifies, the theorems whose proofs failed, the properties that lost
their proof because a lemma below them failed, and the theorems added or tightened in response.
