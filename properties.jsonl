{"id": "C01", "title": "Principal/present conversions are the exact integer roundings", "statement": "For every non-negative amount a and positive index I: the rounded-down principal is the greatest integer p with p*I <= a*10^12, the rounded-up principal is the least integer p with p*I >= a*10^12, and the present amount of a non-negative principal p is the greatest integer x with x*10^12 <= p*I. Hence down <= up <= down+1, converting down and back never gains value, converting up and back never loses value.", "quantifier": "all amounts, principals and indexes (unbounded integers)", "why_tests_cant": "The roundings must be exact for every amount/index pair; tests sample a handful of literals.", "anchors": ["keeper/math.go: GetPrincipalAmountRoundedUp, GetPrincipalAmountRoundedDown, GetPresentAmount"]}
{"id": "C02", "title": "The index never decreases and only an accepted portal delivery can change it", "statement": "Along every history of transactions the stored index is non-decreasing; a transaction that changes it is a portal Deliver, the new value is strictly larger than the old one and is the index carried by the delivered message.", "quantifier": "every history of module messages, bank/IBC/warp traffic and external outcomes", "why_tests_cant": "Requires every message path and every failure path (including the ignored error inside Mint) to respect monotonicity.", "anchors": ["keeper/msg_server.go: UpdateIndex, Mint", "keeper/keeper.go: HandlePayload"]}
{"id": "C03", "title": "A successful index update makes supply equal to principal value and books the difference as yield", "statement": "When UpdateIndex(I) succeeds, the total supply afterwards equals floor(totalPrincipal*I/10^12), the supply increase equals the increase of the total-yield-accrued statistic, and the IndexUpdated event reports the old index, new index, total principal and exactly that increase.", "quantifier": "every state and every index for which UpdateIndex succeeds", "why_tests_cant": "The equality must hold for all supplies/principals, in both vault seasons and with any set of external recipients.", "anchors": ["keeper/msg_server.go: UpdateIndex", "keeper/state.go: IncrementTotalYieldAccrued"]}
{"id": "C04", "title": "Sum of balances equals supply", "statement": "In every reachable state the sum of all USDN balances equals the USDN supply and no balance is negative.", "quantifier": "every history", "why_tests_cant": "Failures that are swallowed part-way (Mint ignores UpdateIndex errors, failed IBC/warp transfers) must not create or destroy coins; this needs an inductive invariant.", "anchors": ["keeper/msg_server.go: Mint, Burn, UpdateIndex, claim*", "keeper/keeper.go: SendRestrictionFn"]}
{"id": "C05", "title": "Supply ledger: supply = initial + bridged in - bridged out + accrued yield", "statement": "Along every history the supply equals the initial supply plus the amounts of accepted token deliveries minus the amounts of successful portal transfers plus the growth of the total-yield-accrued statistic; no other message changes supply.", "quantifier": "every history", "why_tests_cant": "Universally quantified over histories; tests check single messages.", "anchors": ["keeper/msg_server.go: Mint, Burn, UpdateIndex", "keeper/msg_server_portal.go: Transfer"]}
{"id": "C06", "title": "Principal ledger: recorded principals never exceed the total-principal statistic", "statement": "In every reachable state the sum of all recorded principals is at most the total-principal statistic; transfers between holders, vault operations and yield claims leave both the sum and the statistic unchanged; a mint adds at most one unit to the gap.", "quantifier": "every history", "why_tests_cant": "Mint rounds the statistic up but the holder down; the claim needs induction over all transfers.", "anchors": ["keeper/keeper.go: SendRestrictionFn", "keeper/msg_server.go: claimStakedVaultYield"]}
{"id": "C07", "title": "Claiming yield pays exactly the claimable amount, once", "statement": "If ClaimYield succeeds, the account's balance grows by exactly the amount the Yield query reported before, the yield account shrinks by the same amount, no principal and no other balance changes, and afterwards the Yield query reports zero, so an immediate second claim pays nothing.", "quantifier": "every state and account", "why_tests_cant": "Must hold for all principal/balance/index combinations, including the special cases of one unit and negative difference.", "anchors": ["keeper/msg_server.go: ClaimYield", "keeper/keeper.go: GetYield"]}
{"id": "C08", "title": "Nobody but the module can fund or spend the yield account", "statement": "No transfer signed by a user, vault, escrow or bridge account can credit the yield account: such a transfer fails and changes nothing. The yield account's principal never changes. It is debited only by yield claims, to the claiming account or to vault/bridge accounts.", "quantifier": "every history", "why_tests_cant": "Needs all message paths to be checked.", "anchors": ["keeper/keeper.go: SendRestrictionFn"]}
{"id": "C09", "title": "Pausing the module stops yield claims", "statement": "While the module is paused every ClaimYield fails and changes nothing; only SetPausedState signed by the authority changes the pause flag.", "quantifier": "every state/history", "why_tests_cant": "Authorization must hold on every path.", "anchors": ["keeper/msg_server.go: ClaimYield, SetPausedState"]}
{"id": "C10", "title": "Administrative settings change only by the right signer", "statement": "Along every history: the pause flag, yield recipients and vault pause state change only in messages signed by the authority; the portal owner, portal pause, peers and bridging paths change only in messages signed by the current portal owner; with no owner set they never change.", "quantifier": "every history and every signer", "why_tests_cant": "Negative authorization property over all messages.", "anchors": ["keeper/msg_server.go: SetPausedState", "keeper/msg_server_v2.go: SetYieldRecipient", "keeper/msg_server_vaults.go: SetPausedState", "keeper/msg_server_portal.go: EnsureOwner and its callers"]}
{"id": "C11", "title": "Deliver acts only on authenticated, correctly addressed messages", "statement": "If Deliver succeeds then the portal was not paused, the VAA was verified by Wormhole, the emitter is the transceiver configured for the emitter chain, the source manager is the manager configured for that chain and the recipient manager is this module's manager; if moreover it changed balances, supply or index then the payload was a token transfer for this chain and this token or an index update for this chain.", "quantifier": "every byte string delivered and every state", "why_tests_cant": "Quantifies over all byte strings an attacker can submit.", "anchors": ["keeper/keeper.go: Deliver, HandlePayload"]}
{"id": "C12", "title": "A VAA is applied at most once", "statement": "Given that Wormhole archives verified VAAs, no history contains two successful deliveries of VAAs with the same digest.", "quantifier": "every history", "why_tests_cant": "Needs induction over histories.", "anchors": ["keeper/keeper.go: Deliver", "keeper/msg_server_portal.go: Deliver"]}
{"id": "C13", "title": "A delivered token transfer credits exactly the transferred amount", "statement": "When a token delivery for recipient r (not the module, yield or a distribution account) and amount a succeeds, r's balance grows by exactly a, even when the accompanying index is stale, equal or its update fails; supply grows by a plus the yield accrued by that delivery.", "quantifier": "every state, recipient, amount and index", "why_tests_cant": "The accompanying index update may fail half-way; the credited amount must not depend on it.", "anchors": ["keeper/msg_server.go: Mint", "keeper/keeper.go: HandlePayload"]}
{"id": "C14", "title": "A portal transfer burns exactly what the outgoing message says", "statement": "If portal Transfer succeeds: the sender's balance and the supply shrink by exactly the amount, exactly one message is posted, and parsing that message with the module's own parsers yields the same amount, recipient, destination chain, destination token, current index, source token and sender; the nonce advances by one.", "quantifier": "every state and message", "why_tests_cant": "Needs the composed encoders/parsers to agree for all field values.", "anchors": ["keeper/msg_server_portal.go: Transfer", "keeper/msg_server.go: Burn", "types/portal/ntt/ntt.go", "types/portal/ntt/manager.go", "types/portal/ntt/transceiver.go"]}
{"id": "C15", "title": "Outgoing message identifiers are unique", "statement": "In any history with at most 2^32 successful transfers the posted messages carry pairwise different ids and nonces.", "quantifier": "every history with at most 2^32 transfers", "why_tests_cant": "History property with a 32-bit wrap-around boundary.", "anchors": ["keeper/state_portal.go: IncrementPortalNonce", "keeper/msg_server_portal.go: Transfer"]}
{"id": "C16", "title": "Manager message codec round trip", "statement": "Parsing an encoded manager message (32-byte id and sender, payload shorter than 65536 bytes) returns the same fields; parsing accepts a byte string only if it is the encoding of the parsed fields; parsing never panics.", "quantifier": "all byte strings", "why_tests_cant": "Ranges over all byte strings.", "anchors": ["types/portal/ntt/manager.go"]}
{"id": "C17", "title": "Transceiver message codec round trip", "statement": "Parsing an encoded transceiver message (32-byte managers, payloads shorter than 65536 bytes) returns the same fields, whatever extra capacity the Go slice has; the parse result determines a prefix of the input.", "quantifier": "all byte strings and slice capacities", "why_tests_cant": "Ranges over all byte strings.", "anchors": ["types/portal/ntt/transceiver.go"]}
{"id": "C18", "title": "Native token transfer, additional payload and index payload codecs round trip", "statement": "Parsing an encoded native token transfer returns the same amount, source token, recipient, chain and additional payload; the parser never panics; decoding an encoded additional payload or index payload returns the same index, token and chain for every 64-bit index.", "quantifier": "all field values / all byte strings", "why_tests_cant": "Ranges over all byte strings and all 64-bit values.", "anchors": ["types/portal/ntt/ntt.go", "types/portal/additional_payload.go", "types/portal/payload.go"]}
{"id": "C19", "title": "Malformed portal payloads are rejected with an error, never a panic", "statement": "For every byte string in a verified VAA, Deliver returns an error rather than panicking if the bytes are malformed.", "quantifier": "all byte strings", "why_tests_cant": "Ranges over all byte strings.", "anchors": ["types/portal/ntt/transceiver.go: ParseTransceiverMessage", "types/portal/payload.go: DecodeTokenPayload, DecodeIndexPayload"]}
{"id": "C20", "title": "A bridging path set to unsupported cannot be used", "statement": "After the owner sets a bridging path to unsupported, every portal Transfer along that path fails.", "quantifier": "every state reached after SetBridgingPath(supported=false)", "why_tests_cant": "History property.", "anchors": ["keeper/msg_server_portal.go: Transfer, SetBridgingPath"]}
{"id": "C21", "title": "A paused portal neither mints nor burns", "statement": "While the portal is paused every Deliver and Transfer fails and changes nothing; in particular supply is constant along any history during which the portal stays paused.", "quantifier": "every history", "why_tests_cant": "History property.", "anchors": ["keeper/keeper.go: Deliver", "keeper/msg_server_portal.go: Transfer"]}
{"id": "C22", "title": "The staked vault always holds at least the staked positions", "statement": "In every reachable state the balance of the staked vault account is at least the sum of the amounts of all staked positions.", "quantifier": "every history", "why_tests_cant": "Needs an inductive invariant over locks, unlocks, yield distribution in both seasons and swallowed failures.", "anchors": ["keeper/msg_server_vaults.go: Lock, unlock", "keeper/msg_server.go: claimStakedVaultYield, handleVaultsYieldSeasonTwo"]}
{"id": "C23", "title": "Every flexible position is fully held in its own account", "statement": "In every reachable state, for every flexible position the balance of that position's account is at least the position's amount, and two different positions never share an account.", "quantifier": "every history", "why_tests_cant": "Needs injectivity of the account naming scheme and an inductive invariant.", "anchors": ["keeper/msg_server_vaults.go: Lock, unlock, ToUserVaultPositionModuleAccount"]}
{"id": "C24", "title": "Staked positions can always be withdrawn", "statement": "In every reachable state in which unlocking is not paused, an Unlock of a staked amount that is positive, at most the user's staked total and at least the minimum (or the total) succeeds.", "quantifier": "every reachable state, user and amount", "why_tests_cant": "Liveness over all reachable states.", "anchors": ["keeper/msg_server_vaults.go: Unlock, unlock"]}
{"id": "C25", "title": "Unlock pays exactly what it removes", "statement": "If a staked Unlock of amount a succeeds the user's balance grows by exactly a, the staked vault's balance shrinks by exactly a, and the total amount in the user's staked positions shrinks by exactly a; other users' positions are untouched.", "quantifier": "every state, user and amount", "why_tests_cant": "Loop over an unbounded number of positions.", "anchors": ["keeper/msg_server_vaults.go: unlock"]}
{"id": "C26", "title": "Flexible principal totals agree", "statement": "In every reachable state the flexible principal used as reward denominator equals the flexible principal statistic and is at least the sum of the principals of the flexible positions; likewise the staked principal statistic is at least the sum of the staked positions' principals.", "quantifier": "every history", "why_tests_cant": "Induction over locks and partial unlocks with rounding.", "anchors": ["keeper/msg_server_vaults.go: Lock, unlock", "keeper/state_vaults.go"]}
{"id": "C27", "title": "Vault user counts are exact", "statement": "In every reachable state the staked/flexible user count statistic equals the number of distinct addresses with at least one position in that vault, so it never underflows.", "quantifier": "every history", "why_tests_cant": "The decrement is unguarded unsigned arithmetic; safety is an invariant.", "anchors": ["keeper/state_vaults.go: IncrementVaultUsers, DecrementVaultUsers", "keeper/msg_server_vaults.go: Lock, unlock"]}
{"id": "C28", "title": "Recorded vault rewards are always funded", "statement": "In every reachable state the flexible vault's balance is at least the sum of all recorded pending rewards. Along every history in which each flexible position stays below 2*10^18 of principal, every reward record is non-negative, so claiming the rewards of a position never fails.", "quantifier": "every history", "why_tests_cant": "Banker's rounding at 18 decimals can round a share up; the bound needs proof.", "anchors": ["keeper/msg_server_vaults.go: ClaimRewards", "keeper/msg_server.go: handleVaultsYieldSeasonOne"]}
{"id": "C29", "title": "Reward share is the pro-rata share, rounded, and excludes the current cycle", "statement": "For each reward record newer than the position's index and older than the current index, an unlock of principal p pays at most ceil-free pro rata: the amount differs from p*Rewards/Total by less than 1 plus p/10^18, never exceeds the record's remaining rewards (when p<=Total<2*10^18), and the record of the current index pays zero.", "quantifier": "all records and principals", "why_tests_cant": "Fixed-point rounding over unbounded integers.", "anchors": ["keeper/msg_server_vaults.go: ClaimRewards"]}
{"id": "C30", "title": "Lock moves exactly the amount into the vault and respects its rules", "statement": "If Lock succeeds then locking was not paused, the amount was at least the minimum and covered by the user's balance, the vault is staked or flexible (flexible only before the end of season one), no position of that user and vault had the same second, the user's balance shrank and the vault account's grew by exactly the amount, and the new position records the amount, the current index and the rounded-down principal; conversely these conditions suffice for success.", "quantifier": "every state and message", "why_tests_cant": "Decision table over all inputs.", "anchors": ["keeper/msg_server_vaults.go: Lock"]}
{"id": "C31", "title": "Paused vault actions change nothing", "statement": "Lock fails without effect when the vaults are paused for LOCK or ALL, Unlock when paused for UNLOCK or ALL, and flexible Lock/Unlock fail after season one has ended.", "quantifier": "every state and message", "why_tests_cant": "Negative property over all inputs.", "anchors": ["keeper/msg_server_vaults.go: Lock, Unlock"]}
{"id": "C32", "title": "The pending-rewards query predicts the payout of a full unlock", "statement": "For a user with a single flexible position, if the flexible vault's principal is positive, a full unlock pays exactly the rewards reported by PendingRewardsByProvider immediately before.", "quantifier": "every state", "why_tests_cant": "Two separately written loops must agree for all record lists.", "anchors": ["keeper/query_server_vaults.go: PendingRewardsByProvider", "keeper/msg_server_vaults.go: ClaimRewards"]}
{"id": "C33", "title": "Season two sends all staked-vault yield to the collector", "statement": "When season one has ended and UpdateIndex succeeds, the staked vault's balance is unchanged by vault-yield handling, the collector receives exactly the staked vault's claimable yield and no reward record is created.", "quantifier": "every state", "why_tests_cant": "All states.", "anchors": ["keeper/msg_server.go: handleVaultsYieldSeasonTwo"]}
{"id": "C34", "title": "IBC yield is either sent or kept for retry", "statement": "For every IBC channel with a yield recipient, one distribution round conserves value: claimed yield plus the previous retry amount equals the amount put into outgoing transfers plus the new retry amount, and the external-yield statistic grows by exactly the claimed yield. IBC escrow balances always cover everything in flight or outstanding plus the retry amounts.", "quantifier": "every state, every set of channels, every pattern of transfer failures", "why_tests_cant": "Failure patterns are unbounded.", "anchors": ["keeper/msg_server.go: claimExternalYieldIBC", "keeper/state.go: GetRetryAmountAndRemove, IncrementRetryAmount", "ibc_middleware.go"]}
{"id": "C35", "title": "Hyperlane yield portions never exceed the claimed yield", "statement": "In one Hyperlane distribution round the sum of the portions of all routes is at most the claimed yield and short of it by less than one unit (plus yield/10^18) per route, each portion is the route's collateral share rounded down, and each route's portion plus previous retry amount is either transferred or recorded as the new retry amount.", "quantifier": "every list of routes and collateral amounts", "why_tests_cant": "Unbounded lists and rounding.", "anchors": ["keeper/msg_server.go: claimExternalYieldHyperlane"]}
{"id": "C36", "title": "A failed index update never loses Hyperlane retry amounts", "statement": "If an index update fails (for example because a router is missing) while a token delivery is processed, the retry amounts recorded for Hyperlane routes are still recorded afterwards.", "quantifier": "every state and failure", "why_tests_cant": "Error path swallowed by Mint.", "anchors": ["keeper/msg_server.go: Mint, claimExternalYieldHyperlane"]}
{"id": "C37", "title": "USDN leaves over IBC only on channels with a yield recipient", "statement": "SendPacket of an ICS-20 packet whose denom is USDN reaches the underlying channel only if the source channel has an IBC yield recipient; every other packet passes through unchanged.", "quantifier": "every packet and state", "why_tests_cant": "All inputs.", "anchors": ["isc4_wrapper.go: SendPacket"]}
{"id": "C38", "title": "Only failed yield packets are queued for retry", "statement": "On a timeout or an error acknowledgement the retry amount of the source channel grows by the packet amount exactly when the packet is an ICS-20 USDN packet sent by the channel's own escrow account; on a success acknowledgement or any other packet nothing changes; the underlying IBC module is always called.", "quantifier": "every packet and acknowledgement", "why_tests_cant": "All inputs.", "anchors": ["ibc_middleware.go: AddAmountToRetry, OnAcknowledgementPacket, OnTimeoutPacket"]}
{"id": "C39", "title": "Genesis export/import preserves the state", "statement": "Exporting a state whose accounts encode, whose providers are known and whose identifiers contain no slash, and importing it again yields the same state, except that bridging paths marked unsupported disappear.", "quantifier": "every state", "why_tests_cant": "All states.", "anchors": ["genesis.go: InitGenesis, ExportGenesis", "types/v2/provider.go: ParseYieldRecipientKey"]}
{"id": "C40", "title": "Yield distribution does not depend on Go map iteration order", "statement": "UpdateIndex gives the same result for every order in which Go iterates over the yield-recipient maps, and importing genesis gives the same state for every iteration order of its maps.", "quantifier": "every permutation of map iteration", "why_tests_cant": "Go randomises map order; consensus needs the result to be independent of it.", "anchors": ["keeper/msg_server.go: claimExternalYieldIBC, claimExternalYieldHyperlane", "genesis.go: InitGenesis"]}
{"id": "C41", "title": "An index update with a larger index always goes through", "statement": "Whenever a correctly authenticated index update carries a larger index, UpdateIndex does not panic.", "quantifier": "every reachable state", "why_tests_cant": "Reachability of a bad state by dust transfers or by bridging to the yield account.", "anchors": ["keeper/msg_server.go: UpdateIndex (line 145)"]}
{"id": "C42", "title": "The yield account covers all claimable yield", "statement": "Right after a successful index update the yield account's balance covers the sum of all accounts' claimable yield.", "quantifier": "every reachable state", "why_tests_cant": "Accumulated rounding over unbounded histories.", "anchors": ["keeper/keeper.go: GetYield, SendRestrictionFn", "keeper/msg_server.go: UpdateIndex"]}
{"id": "C43", "title": "The holder count equals the number of accounts with a balance", "statement": "In every reachable state the total-holders statistic equals the number of accounts with a non-zero USDN balance, other than the module's own yield and mint accounts.", "quantifier": "every history", "why_tests_cant": "History property.", "anchors": ["keeper/keeper.go: SendRestrictionFn", "keeper/state.go: DecrementTotalHolders, IncrementTotalHolders"]}
{"id": "C44", "title": "A transfer between holders moves exactly the amount and the rounded-up principal", "statement": "A successful transfer of a>0 from u to v (neither module nor yield account, u != v) moves exactly a of balance and exactly ceil(a*10^12/index) of principal from u to v and changes no other balance, principal, the supply, the index or the total-principal statistic. A multi-send does the same for the sums over its outputs, whatever outputs are repeated or name the sender.", "quantifier": "every state, sender, recipient, amount", "why_tests_cant": "All states.", "anchors": ["keeper/keeper.go: SendRestrictionFn"]}
{"id": "C45", "title": "The v1 to v2 migration keeps every statistic", "statement": "Migrate1to2 carries over total holders, total principal and total yield accrued and changes nothing else. On the bytes of the store: version 2 reads the numbers version 1 wrote, every other entry keeps its bytes, a store without readable statistics is refused, and on the store of any reachable state not a single byte changes.", "quantifier": "every v1 state", "why_tests_cant": "All states.", "anchors": ["keeper/migrations.go: Migrate1to2, NewMigrator", "types/dollar.pb.go: Stats", "types/v2/dollar.pb.go: Stats"]}
{"id": "C46", "title": "One account's claim does not change anyone else's claimable yield", "statement": "A successful ClaimYield by u leaves the Yield query of every other account except the yield account unchanged.", "quantifier": "every state and pair of accounts", "why_tests_cant": "All states.", "anchors": ["keeper/msg_server.go: ClaimYield", "keeper/keeper.go: GetYield"]}
{"id": "C47", "title": "Unlock withdraws oldest positions first", "statement": "A successful Unlock consumes a user's positions in ascending time order: every position but the last one touched is removed completely, later positions are unchanged.", "quantifier": "every state and amount", "why_tests_cant": "Unbounded position lists.", "anchors": ["keeper/msg_server_vaults.go: unlock", "keeper/state_vaults.go: GetVaultsPositionsByProviderAndVault"]}
{"id": "C48", "title": "Yield recipients can only be set for existing routes", "statement": "SetYieldRecipient succeeds for IBC only if the channel exists and for Hyperlane only if the identifier decodes to an existing token with exactly one enrolled router, and then stores exactly the given recipient and nothing else.", "quantifier": "every message and state", "why_tests_cant": "All inputs.", "anchors": ["keeper/msg_server_v2.go: SetYieldRecipient, getHyperlaneRouter"]}
{"id": "C49", "title": "Flexible positions can be withdrawn while the yield account can pay", "statement": "In every state reached while flexible positions stay below 2*10^18 of principal, in season one with unlocking not paused, an Unlock of a flexible amount that is positive, at most the user's flexible total and at least the minimum (or the total) succeeds, provided the yield account holds the claimable yield of the accounts of the user's flexible positions.", "quantifier": "every such history, user and amount", "why_tests_cant": "Liveness over all reachable states, through a loop with rewards, yield and two transfers per position.", "anchors": ["keeper/msg_server_vaults.go: Unlock, unlock, ClaimRewards", "keeper/msg_server.go: claimModuleYield"]}
{"id": "C51", "title": "Every administrative message succeeds exactly for its owner with valid input and writes exactly one setting", "statement": "SetPausedState and vaults SetPausedState succeed iff signed by the authority (and the vaults value is one of the four states); portal SetPausedState, SetPeer, SetBridgingPath and TransferOwnership succeed iff signed by the non-empty stored owner and the arguments are valid (chain not zero / not this chain, 32-byte non-zero words, decodable and different new owner). On success the stated setting and one event are the only change.", "quantifier": "every message, signer and state", "why_tests_cant": "All signers, arguments and states; both directions of the condition.", "anchors": ["keeper/msg_server.go: SetPausedState", "keeper/msg_server_vaults.go: SetPausedState", "keeper/msg_server_portal.go: SetPausedState, SetPeer, SetBridgingPath, TransferOwnership, EnsureOwner"]}
{"id": "C52", "title": "A portal transfer succeeds exactly when it is unpaused, routed and funded, and its events name the posted message", "statement": "In every reachable state a portal Transfer succeeds iff the portal is not paused, a peer for the chain and a path for (chain, token) are stored, the recipient is 32 bytes, Wormhole accepts the post, the signer decodes to at most 32 bytes, and the amount is given, non-negative, below 2^63 and covered by the balance. It emits exactly three events; they name the amount, the index, the nonce, the recipient and the digest keccak(chain id of this chain || manager message) of the message actually posted.", "quantifier": "every reachable state and message", "why_tests_cant": "Liveness and agreement for every input and history.", "anchors": ["keeper/msg_server_portal.go: Transfer", "keeper/keeper.go: Burn", "types/portal/ntt: ManagerMessageDigest"]}
{"id": "C53", "title": "USDN is freely transferable", "statement": "In every reachable state a bank send by a user succeeds iff the amount is positive and covered by the balance and the recipient is neither blocked nor the yield account; a multi-send succeeds iff it has an output, this holds for every output and the sum is covered. No pause, season, peer or vault position can freeze a balance.", "quantifier": "every reachable state, user and recipients", "why_tests_cant": "Liveness over all histories.", "anchors": ["keeper/keeper.go: SendRestrictionFn"]}
{"id": "C50", "title": "Season one pays the yield of both vaults to the flexible vault and records exactly that", "statement": "An accepted index announcement in season one pays the flexible vault account the yield of both vaults at the new index, leaves the staked vault's coins untouched, moves the rounded-down principal of the staked yield from the staked to the flexible vault, writes exactly one reward record (new index, flexible principal currently locked, sum of both yields) and changes no position. Afterwards the flexible vault has nothing left to claim and the staked vault at most one unit plus the value of one unit of principal.", "quantifier": "every reachable state and announced index (rounding claims: index below 2*10^18)", "why_tests_cant": "All states and indexes; conservation through two transfers and decimal rounding.", "anchors": ["keeper/msg_server.go: handleVaultsYieldSeasonOne, claimModuleYield, claimStakedVaultYield, UpdateIndex"]}
{"id": "C54", "title": "Every holder earns the index growth on the whole balance, up to counted roundings", "statement": "After any history, a user's balance is worth at most their principal plus one unit of principal for each rounding against them; only their own successful payments (one per output) and portal deliveries to them round against them. Hence when the index goes from I to J they can claim at least balance*(J-I)/I minus 2 units minus the value of one unit of principal per such rounding, whatever other accounts, vaults and routes did.", "quantifier": "every history from a fresh chain, every user, every later index", "why_tests_cant": "Induction over unbounded histories; rounding debts accumulate one unit at a time.", "anchors": ["keeper/keeper.go: SendRestrictionFn, GetYield", "keeper/math.go", "keeper/msg_server.go: UpdateIndex, ClaimYield, Mint, Burn", "keeper/msg_server_vaults.go"]}
{"id": "C55", "title": "Nobody but the holder can lower what the holder owns", "statement": "Whatever messages anyone else sends, the worth of a user (the larger of the balance and the value of the principal at the current index) does not fall, and no vault position of theirs disappears or shrinks; only messages signed by the user can lower them.", "quantifier": "every reachable state, user and history containing no message signed by the user", "why_tests_cant": "Induction over arbitrary histories of adversarial messages, including index updates, deliveries and other users' vault operations.", "anchors": ["keeper/keeper.go: SendRestrictionFn", "keeper/msg_server.go: UpdateIndex, ClaimYield", "keeper/msg_server_vaults.go: Lock, Unlock", "keeper/msg_server_portal.go: Deliver, Transfer"]}
{"id": "C57", "title": "Outgoing messages follow the published wire format byte for byte", "statement": "A successful portal Transfer posts exactly 259 bytes: transceiver prefix, source manager, peer manager, length 187, message id (the nonce in 32 bytes), sender, length 121, NTT prefix, 6 decimals, amount (8 bytes big-endian), source token, recipient, destination chain (2 bytes), length 40, index (8 bytes), destination token, empty transceiver payload. Different field values give different bytes. An index payload is M0IT, index (8 bytes), destination (2 bytes).", "quantifier": "every reachable state, transfer and field value", "why_tests_cant": "All amounts, indexes, nonces, chains and addresses; injectivity over all pairs of messages.", "anchors": ["keeper/msg_server_portal.go: Transfer", "types/portal/ntt: EncodeTransceiverMessage, EncodeManagerMessage, EncodeNativeTokenTransfer", "types/portal: EncodeAdditionalPayload, EncodeIndexPayload"]}
{"id": "C56", "title": "When and how often a holder claims does not matter", "statement": "If a user's coins move only through the user's own yield claims, then after any history what the user has (balance, or value of the principal if more) equals the larger of the starting balance and principal * final index / 10^12. Claiming early, late, often or never gives the same; in particular frequent claims lose nothing to rounding and gain nothing.", "quantifier": "every reachable state, user (not the yield collector) and history without other movements of the user's coins", "why_tests_cant": "Relates two arbitrary histories; rounding could accumulate over unboundedly many claims.", "anchors": ["keeper/msg_server.go: ClaimYield", "keeper/keeper.go: GetYield, SendRestrictionFn", "keeper/math.go"]}
{"id": "C58", "title": "The positions a user is shown are the accepted locks minus the accepted unlocks", "statement": "Over any history, the total amount that the positions query lists for a user in a vault grows by exactly the amounts of that user's successful Lock messages and shrinks by exactly the amounts of the successful Unlock messages; on a fresh chain it is their difference. Index updates, yield, rewards, failed messages and other users change nothing.", "quantifier": "every reachable state, history, user and vault", "why_tests_cant": "Sums over unbounded histories of interleaved messages of all users, with partial and multi-position unlocks.", "anchors": ["keeper/query_server_vaults.go: PositionsByProvider", "keeper/msg_server_vaults.go: Lock, Unlock", "keeper/state_vaults.go: GetVaultsPositionsByProvider"]}
{"id": "C59", "title": "Queries tell the truth", "statement": "After any history the pause, owner, peer, destination-token and yield-recipient queries return what the last successful message for that setting asked for, and the previous answer if there was none; nothing is listed twice or hidden by another entry. The index query is exactly index / 10^12. The statistics show as yield the supply that did not come over the bridge, cover all recorded principals, never overcount holders, and give the flexible principal and the users per vault.", "quantifier": "every reachable state and history", "why_tests_cant": "The answer depends on the whole history of accepted and rejected messages.", "anchors": ["keeper/query_server.go: Index, Paused, Principal, Stats", "keeper/query_server_portal.go: Owner, Paused, Peers, DestinationTokens", "keeper/query_server_v2.go: Stats, YieldRecipients, YieldRecipient, RetryAmounts", "keeper/query_server_vaults.go: Paused, Stats"]}
{"id": "C60", "title": "The books of externally routed yield balance for every channel", "statement": "Over any history and for every IBC channel, the total yield reported as sent to the channel grows by exactly what was sent out by yield packets on it, minus what came back in failed yield packets, plus the change of the amount waiting for a retry. From a fresh chain: reported = sent - returned + waiting.", "quantifier": "every reachable state, history and channel", "why_tests_cant": "Needs every interleaving of claims, successes, timeouts, error acknowledgements, retries and new recipients over an unbounded history.", "anchors": ["keeper/msg_server.go: claimExternalYieldIBC", "keeper/state.go: IncrementTotalExternalYield, GetRetryAmountAndRemove, IncrementRetryAmount", "ibc_middleware.go: AddAmountToRetry, OnTimeoutPacket, OnAcknowledgementPacket"]}
{"id": "C61", "title": "The event log is complete", "statement": "The log only grows. An indexer that knows the settings (pauses, owner, peers, bridging paths, yield recipients), the index, the transfer sequence and the vault statistics at one moment, and follows the emitted events, knows them at every later moment; no event contradicts what it knows. Two executions with the same log agree on all of it.", "quantifier": "every reachable state and history", "why_tests_cant": "A message that changes such a value without reporting it, or reports a wrong old value, may only show after some other history.", "anchors": ["keeper/msg_server.go", "keeper/msg_server_portal.go", "keeper/msg_server_vaults.go", "keeper/msg_server_v2.go", "types/events.pb.go", "types/portal/events.pb.go", "types/vaults/events.pb.go"]}
{"id": "C62", "title": "The supply can be computed from the event log", "statement": "An indexer that adds up received amounts, sent amounts and the yield of index updates knows the total supply and the total yield. (False of the code when an index update fails inside a token delivery: the yield is minted, the index raised, and no event speaks of it. The log never overstates the yield, and it is exact as long as every index quoted by a receipt was announced by an index update.)", "quantifier": "every reachable state and history", "why_tests_cant": "Depends on failures inside index updates that are swallowed, anywhere in an unbounded history.", "anchors": ["keeper/msg_server.go: Mint, UpdateIndex", "keeper/keeper.go: HandlePayload", "types/events.pb.go: IndexUpdated"]}
{"id": "C63", "title": "Events report what was paid", "statement": "The events of an accepted vault message or delivery tell the truth. The events of an unlock name only the signer, each refers to a position the signer really had and reports the floor principal of the part withdrawn at that position's index, and the amounts they report add up exactly to what arrived on the signer's account. The event of a lock reports exactly the position that was opened. The events of a delivery report the source chain, sender, message identifier, token, recipient, amount and index of the verified message, and an index update is reported with the old index, the new index, the total principal and exactly the yield that was minted.", "quantifier": "every well-formed configuration, reachable state, environment, signer, vault, amount and message bytes", "why_tests_cant": "Wallets and indexers show these events for every history; tests look at a few of them and rarely add the amounts up.", "anchors": ["keeper/msg_server_vaults.go: Lock, Unlock", "keeper/keeper.go: HandlePayload", "keeper/msg_server.go: UpdateIndex", "keeper/msg_server_portal.go: Deliver"]}
{"id": "C64", "title": "What one chain sends, another chain running this code accepts", "statement": "A token delivery is accepted exactly when the portal is open, the message is new, comes from the configured peer and is addressed to this module, chain and token, the recipient may receive coins and the quoted index does not put the principal value below the supply; an authenticated message of an unknown kind is accepted and ignored. Hence a portal Transfer on one chain to another chain that runs this code (each being the other's peer) is accepted there: the recipient gets exactly what left the sender, the two supplies together change only by the yield the delivery accrues, and the two chains' events carry the same message identifier.", "quantifier": "all pairs of well-formed configurations, reachable states, amounts, recipients, capacities of the received slice", "why_tests_cant": "Encoder and decoder live on different chains; a unit test with fixed bytes checks each side for some values only, never that every accepted transfer is deliverable.", "anchors": ["keeper/msg_server_portal.go: Transfer, Deliver", "keeper/keeper.go: Deliver, HandlePayload", "types/portal/payload.go: DecodeTokenPayload"]}
{"id": "C65", "title": "Books of Hyperlane yield", "statement": "Over any history, the growth of the external yield that the chain reports for the Hyperlane identifiers of a warp token is at least what the chain dispatched for the token apart from transfers of users, plus the growth of the amounts waiting for a retry. They are equal when no delivered token transfer quotes an index ahead of the chain's. So the module never dispatches yield that it does not report.", "quantifier": "all reachable states, all histories of messages and environments (including failing warp transfers, missing routers and bad recipients), all warp tokens", "why_tests_cant": "The balance must hold after every interleaving of successful, failed and retried dispatches, with user transfers through the same token in between; tests check single distributions.", "anchors": ["keeper/msg_server.go: claimExternalYieldHyperlane", "keeper/state.go: IncrementTotalExternalYield, GetRetryAmountAndRemove, IncrementRetryAmount", "keeper/query_server_v2.go: Stats"]}
{"id": "C66", "title": "Collections and indexes share one store without interference", "statement": "All entries of the module live in one key-value store ordered by bytes. Different entries (of the same or of different collections, including the two indexes of vault positions) have different keys, and a scan over a collection's prefix meets that collection only. After any sequence of writes, reading an entry gives what was last written to it; the lookup of vault positions by owner, and by owner and vault, gives exactly the stored positions of that owner (and vault), by vault and time; walking the reward records after an index visits exactly those with a larger index in ascending order; the recipients of a provider and the tokens of a chain are exactly those stored.", "quantifier": "all sequences of writes to all collections, all owners, vaults, times, indexes, providers, identifiers, chains", "why_tests_cant": "collisions and scan overruns need particular bytes in addresses or identifiers (one address the beginning of another, an identifier that looks like a prefix), which examples do not hit", "anchors": ["keeper/keeper.go:NewKeeper", "keeper/state_vaults.go:NewVaultsPositionsIndexes", "keeper/state_vaults.go:GetVaultsPositionsByProviderAndVault", "keeper/msg_server_vaults.go:ClaimRewards", "keeper/state.go:GetYieldRecipientsByProvider", "types/keys.go", "types/vaults/keys.go", "types/portal/keys.go"]}
{"id": "C67", "title": "Users cannot make money by paying each other", "statement": "Take any group of users and any history in which nobody pays into the group from outside (no payment by an outsider to a member, no incoming portal, IBC or Hyperlane transfer to a member, no refund to a member, no unlock by a member). Measured in units of principal (principal, or balance at the current index rounded up if that is more), what the group holds grows by at most one unit per payment made by a member. In coins: afterwards the group is worth, claimable yield included, at most what its original holdings would be worth at the new index had it done nothing, plus the value of one unit of principal per payment.", "quantifier": "every reachable state, every group of distinct users that does not include the season-two collector, every history of any length", "why_tests_cant": "A rounding exploit is a search for a clever schedule of payments, claims and index updates among any number of accounts; tests try a few fixed schedules", "anchors": ["keeper/keeper.go:SendRestrictionFn", "keeper/msg_server.go:ClaimYield", "keeper/keeper.go:GetYield", "keeper/msg_server.go:UpdateIndex"]}
{"id": "C68", "title": "The order of yield claims does not matter while the yield account can pay", "statement": "A batch of claims by different users goes through exactly when the yield account holds the sum of what the Yield query reports for them, and then everybody gets exactly that. So if the batch goes through in one order it goes through in every order, with the same balances, and nothing else differs but the order of events. When the yield account falls short, whoever claims first is paid and the others get an error.", "quantifier": "every reachable state, every list of distinct claimants of any length, every permutation of it", "why_tests_cant": "All orders of an arbitrary batch of claims are factorially many; tests run one", "anchors": ["keeper/msg_server.go:ClaimYield", "keeper/keeper.go:GetYield", "keeper/keeper.go:SendRestrictionFn"]}
{"id": "C69", "title": "Affordable payments can be executed in any order", "statement": "Take a batch of bank payments by users to accounts that may receive USDN, each of a positive amount, such that every payer holds at the start at least the sum of what they pay in the batch. Then in every order of the batch every payment goes through, every balance ends at its starting value minus what the account pays plus what it is paid, and every order ends with the same principal for everybody and the same rest of the state (only the holder statistic is left open). Even for batches that are not affordable up front, any two orders in which all payments go through end with the same balances and principals.", "quantifier": "every reachable state, every list of payments in any environments, every permutation of it", "why_tests_cant": "The number of orders of a batch is factorial in its length, and rounding of principal on each move could accumulate differently in each order; a test runs one order.", "anchors": ["keeper/keeper.go:SendRestrictionFn"]}
{"id": "C70", "title": "The supply is bounded by everything ever delivered, grown by the index", "statement": "After any history on a fresh chain, the total supply is worth at most everything ever delivered through the portal, where each delivery is counted in units of principal at the index it left behind (rounded up): 10^12 * supply <= index * units. The total-principal statistic is at most the same number of units and no balance exceeds the supply. On a chain that starts at an index of at least 10^12 the units are at most the delivered amount; with n deliveries of tokens the index is below 2^63, the total principal at most n * 2^64 and the supply and every balance at most n * 2^88, so the 256-bit integers of the implementation leave more than 100 bits of headroom for any realistic number of deliveries.", "quantifier": "every history of every length, every sequence of amounts and indices that the wire format can carry", "why_tests_cant": "A runaway of the supply would need a long history of rounding, index updates and bridge traffic; a test looks at a few steps with friendly numbers.", "anchors": ["keeper/msg_server.go:UpdateIndex", "keeper/keeper.go:SendRestrictionFn", "keeper/keeper.go:HandlePayload", "types/portal/payload.go:DecodeTokenPayload"]}
{"id": "C71", "title": "No message moves more principal than the supply, and the arithmetic never overflows", "statement": "On a chain whose index starts at 1.0 (10^12) or above, no message changes the principal of any account, or the total principal, by more than the supply before or after it. So after n messages with d deliveries of tokens every principal is within n*d*2^88 of zero, and in the first 2^40 messages none of the three principal conversions overflows the 256-bit integers of the chain: each returns the exact mathematical result instead of panicking.", "quantifier": "Every history of signed messages, every account, every amount up to the supply plus one delivery, every 64-bit index.", "why_tests_cant": "Tests convert a few amounts; that no reachable state can hold a principal large enough to overflow needs a bound over all histories, including the principal that index updates shift between vaults.", "anchors": ["keeper/math.go: GetPrincipalAmountRoundedUp, GetPrincipalAmountRoundedDown, GetPresentAmount", "keeper/keeper.go: SendRestrictionFn", "keeper/msg_server.go: UpdateIndex, claimModuleYield, handleVaultsYieldSeasonOne, handleVaultsYieldSeasonTwo", "keeper/msg_server_vaults.go: Unlock"]}
{"id": "C72", "title": "Several messages in one transaction", "statement": "A transaction may carry several messages and pay a fee in USDN. If every message succeeds, run in order, all effects are kept; if any one fails, none of them leaves a trace. The fee is kept either way, and a transaction whose fee cannot be paid has no effect. Every state reached by such transactions is reached by some history of single-message transactions, so each property about histories holds for them too.", "quantifier": "every sequence of transactions, each with any number of messages of any kind and any fee", "why_tests_cant": "Handler tests call one handler on a prepared context; they neither roll back a half-done transaction nor combine the messages of different handlers in one.", "anchors": ["module.go:RegisterServices", "keeper/keeper.go:SendRestrictionFn"]}
{"id": "C73", "title": "Stored values are read back as written", "statement": "Every value the module writes into its store (reward records, vault positions, both kinds of statistics, peers, flags, counters, amounts, enumerations, the index) is read back exactly, for every value in the range of its Go type, and the size announced before encoding is the number of bytes written.", "quantifier": "all values within the range of their Go types, all schemas of stored values and messages, any decimal parser that reads decimal text back", "why_tests_cant": "the set of values is unbounded; tests encode a handful of them", "anchors": ["types/vaults/vaults.pb.go:Reward.Marshal", "types/vaults/vaults.pb.go:Position.Unmarshal", "types/v2/dollar.pb.go:Stats.Size", "types/portal/portal.pb.go:Peer.Unmarshal", "keeper/keeper.go:NewKeeper"]}
{"id": "C74", "title": "Hostile bytes never crash the decoder", "statement": "Decoding a message or a stored value from arbitrary bytes ends with a value or an error: no index outside the bytes, no endless loop, no panic, whatever lengths, overflowing varints or nested groups the bytes claim. Fields a reader does not know are passed over and the others are read as written; a field numbered 0, a stray group end or a known field in the wrong form is refused.", "quantifier": "all byte strings shorter than 2^63, all message types and stored values, all additional fields", "why_tests_cant": "the space of byte strings is infinite; fuzzing samples it", "anchors": ["types/tx.pb.go:MsgClaimYield.Unmarshal", "types/portal/tx.pb.go:MsgTransfer.Unmarshal", "types/vaults/tx.pb.go:MsgLock.Unmarshal", "types/vaults/vaults.pb.go:skipVaults"]}
{"id": "C75", "title": "The message signed is the message executed", "statement": "A message encoded by a client is received by the handler unchanged, and two different messages never have the same encoding. Outside the range of the Go types: an amount left out arrives as nil, and the 32-bit chain id of a transfer is silently cut to 16 bits, so that chain 65538 is taken for chain 2.", "quantifier": "all messages of the four services whose parts are in range; all 32-bit chain ids", "why_tests_cant": "it is a statement about all messages and pairs of messages; the truncation only shows for chain ids no test uses", "anchors": ["types/tx.pb.go", "types/v2/tx.pb.go", "types/portal/tx.pb.go:MsgTransfer.Unmarshal", "types/vaults/tx.pb.go"]}
{"id": "C76", "title": "Messages panic only for listed causes", "statement": "A message panics only for one of these causes: a portal transfer without amount, with a negative amount, with an amount of 2^63 and more or from an address of more than 32 bytes; a lock without amount (or negative, where the configured minimum is negative); a delivered message that is malformed or announces an index at which the principal is worth less than the supply. Claims, unlocks, administrative messages, bank transfers made by users or by other modules (fees), IBC callbacks and warp transfers never panic, whatever their arguments. For transfers and locks the conditions are exact.", "quantifier": "all reachable states, messages, arguments and environments; transactions of any number of messages", "why_tests_cant": "absence of panics must hold in every state and for every argument; keeper-level sends run in block hooks, where a panic halts the chain", "anchors": ["keeper/keeper.go:SendRestrictionFn", "keeper/msg_server.go", "keeper/msg_server_portal.go:Transfer", "keeper/msg_server_vaults.go:Lock,unlock,ClaimRewards", "ibc_middleware.go"]}
{"id": "C77", "title": "A user can always take everything out while the portal is open", "statement": "While the portal is not paused, has a peer and a bridging path for the destination, and unlocking is not paused, a user can take everything out: unlocking the whole stake and then bridging the whole balance always succeeds, in two messages unless the sum exceeds 2^63 - 1, and then in portions of any sizes below 2^63. Afterwards the user's balance and stake are 0, the supply has shrunk by exactly what they held, and nobody else's balance or stake has changed, except for the account of the staked vault.", "quantifier": "all reachable states, users, destinations, portions, and times and answers of other modules, as long as Wormhole accepts the messages", "why_tests_cant": "that no earlier history, of this user or others, can lock a holder in is a statement about every reachable state", "anchors": ["keeper/msg_server_portal.go:Transfer", "keeper/msg_server_vaults.go:Unlock,unlock", "keeper/keeper.go:SendRestrictionFn,Burn"]}
{"id": "C78", "title": "Ending season one pays every flexible position out", "statement": "The routine that ends season one unlocks every flexible position: if the yield account holds the yield of the accounts of the flexible positions, nothing is left in the flexible vault afterwards, every user has received at least the amount locked, users without flexible positions, stakes, the account of the staked vault, the supply and the index are unchanged. If the yield account cannot pay, the routine still neither fails nor panics and leaves every staked position alone.", "quantifier": "all reachable states with any number of users and positions (below 2*10^18 units of principal each for the payout)", "why_tests_cant": "the routine runs once, in an upgrade, over whatever positions exist; a failure there stops the upgrade", "anchors": ["keeper/msg_server_vaults.go:endVaultsSeasonOne,unlock,ClaimRewards", "keeper/state_vaults.go:GetVaultsPositions"]}
{"id": "C79", "title": "A restarted node has the state it had", "statement": "All the module's state is in its key-value store: from the bytes there, and the state of the other modules, a node that stops at any block and starts again reads exactly the state it had, item by item and entry by entry. Two states with the same bytes therefore have the same future.", "quantifier": "all reachable states whose numbers are in the range of their Go types, all nanoseconds of block times, all futures", "why_tests_cant": "a restart at every point of every history cannot be enumerated", "anchors": ["keeper/keeper.go:NewKeeper", "keeper/state.go", "keeper/state_portal.go", "keeper/state_vaults.go"]}
{"id": "C80", "title": "Others leaving the flexible vault do not eat a user's rewards", "statement": "Take a reachable state and a flexible position of a user. Let any history of transactions follow in which nobody unlocks flexible positions of this user: other users may withdraw from the flexible vault in any order and in any portions, and yield may arrive. The position stays unchanged, every reward record newer than it still covers its principal, and the position's share of each record does not fall by more than (principal withdrawn by others)/(2*10^18) units. While record totals are below two thirds of 10^18 units, the pending rewards shown for the position drop by at most one unit per record newer than the position, and a full unlock afterwards pays at least that.", "quantifier": "every reachable state, flexible position, reward record, and every later history of user-signed transactions and deliveries without a flexible unlock by this user", "why_tests_cant": "The rounding of each withdrawal touches the records the others share; the claim is about every number, order and size of withdrawals by others, which tests can only sample.", "anchors": ["keeper/msg_server_vaults.go:ClaimRewards", "keeper/msg_server_vaults.go:Unlock", "keeper/query_server_vaults.go:PendingRewardsByProvider"]}
{"id": "C81", "title": "Restarts, upgrades and the end of season one", "statement": "The chain may be stopped, its genesis exported, settings in it edited (pause flags, owner, peers, paths, yield recipients, collector, season flag) and restarted from it: balances, principals, statistics, positions and rewards are what they were, and everything that holds of a state reached by transactions alone holds of the restarted one. No message starts or ends a season. Once season one has ended its books stand still: flexible positions are neither created, changed nor removed, and rewards records do not change; a flexible position left behind keeps its coins but no Unlock from the flexible vault succeeds. If the sweep that ends season one is run first, with the yield account able to pay, every user gets at least what they had locked and nothing is ever locked in the flexible vault again.", "quantifier": "every reachable state, every edit of the settings in the exported genesis, every history of messages before and after the restart", "why_tests_cant": "Tests import small hand-written genesis files; they neither restart from an export of a long history nor try what every later sequence of messages can do to the positions that remain.", "anchors": ["genesis.go:InitGenesis", "genesis.go:ExportGenesis", "keeper/msg_server_vaults.go:Lock", "keeper/msg_server_vaults.go:Unlock", "keeper/msg_server_vaults.go:endVaultsSeasonOne", "keeper/msg_server.go:UpdateIndex", "keeper/state_vaults.go:IsVaultsSeasonOneEnded"]}
{"id": "C82", "title": "Every stored number fits its Go type", "statement": "On a chain that started with an empty module (index between 10^12 and 2^63), everything the module stores during the first 2^80 messages is in the range of its Go type: principals, statistics, external yield, retry amounts, positions and rewards fit the 256 bits of an Int, the index, the times and the counters their 64 bits, the nonce 32, and keys are well formed, as long as fewer than 2^64 accounts hold coins (there are never more holders than units of supply). A node can therefore restart at any point and read back the state it had, without further assumption.", "quantifier": "every history of fewer than 2^80 well-typed messages in blocks between the years 1 and 9999, every address codec with addresses of at most 255 bytes", "why_tests_cant": "Overflow needs amounts accumulated over histories no test can run; the bound is on every field after every history.", "anchors": ["keeper/state.go", "keeper/state_vaults.go", "keeper/state_portal.go", "keeper/msg_server.go:UpdateIndex", "keeper/msg_server_vaults.go:Lock,unlock,ClaimRewards", "types/v2/dollar.pb.go:Stats"]}
{"id": "C83", "title": "Yield for other chains belongs to registered routes", "statement": "On a chain that started with an empty module, external yield, amounts waiting to be sent again and IBC packets under way exist only for routes (provider and identifier) that have a yield recipient. No message removes a yield recipient; it can only be replaced.", "quantifier": "every history of messages, every route", "why_tests_cant": "The routes are read from the store at every index update and packets come back in any later block; the claim covers every interleaving.", "anchors": ["keeper/msg_server.go:SetYieldRecipient,ClaimExternalYieldIBC,ClaimExternalYieldHyperlane", "keeper/state.go", "isc4_wrapper.go:SendPacket", "ibc_middleware.go:OnTimeoutPacket"]}
{"id": "C84", "title": "Bridging between chains creates no coins", "statement": "Take any number of chains that run this module, each with its own owners, users and histories, connected by Wormhole whose guardians only sign what the portals have posted, and with peers set to the true portal addresses. Then every delivery accepted from one of these chains was caused by an earlier successful transfer on that chain, with the same amount, for this chain and token, to the same recipient. No chain mints more for messages of another than transfers there burned for it. The supplies of all chains together with what is on the way equal what came from other networks less what left for them, plus the accrued yield; what is on the way is never negative.", "quantifier": "every number of chains, every interleaving of transactions on them (deliveries in any order, repeated or lost), every state of the guardians' other messages", "why_tests_cant": "Conservation across chains depends on every possible order of transfers, deliveries and replays on all of them at once; a test can run one order between two chains.", "anchors": ["keeper/msg_server_portal.go:Deliver,Transfer", "keeper/keeper.go:HandlePayload", "types/portal/ntt/transceiver.go", "types/portal/ntt/manager.go"]}
{"id": "C85", "title": "Decimal computations do not overflow", "statement": "On a chain that starts at an index of at least one that fits in 64 bits, in its first 2^39 messages no decimal computation of the module panics for overflow or division by zero: not the reward that unlocking (or the pending-rewards query) computes for a position, not a Hyperlane route's share of the yield, and not the principal moved when the staked vault's yield goes to the flexible vault. Each gives the exact value that the other claims speak of.", "quantifier": "every history of up to 2^39 messages, every record, position, partial amount, route and yield", "why_tests_cant": "The bound of 315 bits is far above any test value, and what the numbers can reach is a question about all histories.", "anchors": ["keeper/msg_server_vaults.go:ClaimRewards", "keeper/query_server_vaults.go:PendingRewardsByProvider", "keeper/msg_server.go:claimStakedVaultYield,claimExternalYieldHyperlane"]}
{"id": "C86", "title": "When an index announcement is accepted, and what it pays", "statement": "An index announcement is accepted exactly when the portal admits the message, it is made for this chain, its index is larger than the current one, the total principal at that index is worth at least the supply, the yield account together with the new coins covers the yield of the vaults, of the escrow accounts of channels with a recipient and of the warp account, and every warp route that is due something has a token, one router and a proper recipient. It then takes exactly that sum out of the yield account. If no balance exceeds the value of its principal at the new index, the yield account always suffices. Inside an accepted token delivery the index update takes place, and is reported, under the same conditions. (The condition on the yield account can fail in practice: a one-unit IBC transfer can block an announcement.)", "quantifier": "every reachable state, every environment, every announcement and token delivery", "why_tests_cant": "Whether an update can get stuck depends on all balances, principals and routes together.", "anchors": ["keeper/msg_server.go:UpdateIndex,claimExternalYieldIBC,claimExternalYieldHyperlane", "keeper/keeper.go:HandlePayload"]}
{"id": "C87", "title": "Statistics, event log and outboxes never influence what happens", "statement": "Take any two states that differ only in statistics (holder count, yield totals, vault statistics), the event log and the lists of messages and packets sent. Every message ends the same way in both, with the same error if it fails, and the states after it again differ only in those records; so they do after any history.", "quantifier": "all configurations, environments, messages, pairs of states that agree on everything else, and histories of any length", "why_tests_cant": "a test starts from consistent statistics; that no code path ever reads them back is a statement about all pairs of states", "anchors": ["keeper/state.go", "keeper/keeper.go SendRestrictionFn", "keeper/msg_server.go UpdateIndex", "keeper/msg_server_vaults.go Lock/Unlock", "keeper/keeper.go Deliver"]}
{"id": "C88", "title": "A message depends only on the settings that concern it", "statement": "A claim looks at the module's pause flag, locks and unlocks at the vaults' pause state, deliveries at the portal's pause flag, its peers and the archive of delivered messages, transfers at the portal's pause flag, its peers and bridging paths, the portal's administrative messages at its owner, and everything else (sends, IBC and warp transfers, yield routes) at none of these. In two states that agree on the funds and on what a message looks at, it ends the same way and does the same to the funds.", "quantifier": "all configurations, environments, messages and pairs of states", "why_tests_cant": "non-interference compares all pairs of states; a test compares two", "anchors": ["keeper/msg_server.go ClaimYield", "keeper/msg_server_vaults.go Lock/Unlock", "keeper/msg_server_portal.go", "keeper/keeper.go Deliver", "keeper/keeper.go SendRestrictionFn"]}
{"id": "C89", "title": "A transfer that quotes a newer index is an announcement of that index followed by the transfer", "statement": "If an index announcement is accepted, then a transfer quoting the same index is accepted after it exactly when it is accepted instead of it, and in both cases everything ends up the same except the archive of delivered messages and the log. Conversely, whenever an accepted transfer reports an index update, an announcement of that index by the same peer would have been accepted, and the transfer after it. So the update within a transfer pays IBC channels, Hyperlane routes, vaults and collector as an announcement does, and the transfer's own part only pays its recipient.", "quantifier": "all reachable states, environments, transfers and announcements", "why_tests_cant": "the two orders of events must agree for every state and every failure of an external transfer", "anchors": ["keeper/keeper.go HandlePayload", "keeper/msg_server.go Mint", "keeper/msg_server.go UpdateIndex"]}
{"id": "C90", "title": "Decoded messages are well typed", "statement": "Whatever bytes a transaction carries: if they decode as a message of some type, the message is of that type and every part of it is in the range of its Go type (byte strings, 32-bit enumerations, 16-bit chain ids, amounts absent or of at most 256 bits), however oversized, repeated or reordered the encoded numbers are. Written down again the message is read as the same message.", "quantifier": "every byte string shorter than 2^63 and every message type", "why_tests_cant": "The byte strings are unbounded; hostile encodings (overlong varints, repeated fields, values beyond the field width) are not what a client library produces.", "anchors": ["types/portal/tx.pb.go: Unmarshal", "types/tx.pb.go: Unmarshal", "types/vaults/tx.pb.go: Unmarshal"]}
{"id": "C91", "title": "The default genesis starts a fresh chain", "statement": "The default genesis with any settings filled in (pause flags, owner, peers, bridging paths, yield recipients, season flag, collector) is accepted exactly when the collector is an address and every recipient key can be parsed; the chain it starts has index 10^12, no principal, positions, rewards, statistics or retry amounts, and the settings of the file. It is therefore a fresh chain in the sense of every property that starts from one.", "quantifier": "all settings written into the default genesis", "why_tests_cant": "Tests import one or two hand-written files; the properties about histories rest on the starting state for every choice of settings.", "anchors": ["genesis.go: InitGenesis", "types/v2/genesis.go: DefaultGenesisState"]}
{"id": "C92", "title": "The order of independent transactions does not matter", "statement": "Take transactions of different accounts, each a bank transfer, a multi-send, a claim of yield, a vault lock or a bridge transfer, none of which pays an account that makes another of them. In whatever order a block contains them, the same ones succeed and the same ones fail, and afterwards every balance, principal, position, setting and total of the module is the same. Claims compete for one pool of yield: the property assumes that no claim in the block fails.", "quantifier": "every well-formed configuration, every reachable state, every list of pairwise independent transactions of users (any length), every permutation of it, every environment of each transaction", "why_tests_cant": "Tests run one order of a few transactions; a block proposer can choose any of n! orders of any transactions, on any state.", "anchors": ["keeper/keeper.go: SendRestrictionFn", "keeper/msg_server.go: ClaimYield", "keeper/msg_server_vaults.go: Lock", "keeper/msg_server_portal.go: Transfer"]}
{"id": "C93", "title": "The minting account is empty between transactions", "statement": "After every history the account the module mints to and burns from holds no dollars and no principal: everything minted reached its recipient and everything taken for a bridge transfer was burned, so the supply is what all other accounts hold together.", "quantifier": "every reachable state, with upgrades in between", "why_tests_cant": "Must hold after every interleaving of deliveries, failed index updates, bridge transfers and bank messages, not just in one run.", "anchors": ["keeper/msg_server.go: Mint, Burn, UpdateIndex", "keeper/keeper.go: SendRestrictionFn"]}
{"id": "C94", "title": "Coins in escrow and in vaults earn the index growth", "statement": "Dollars that are held for others earn like any others: for every account except the yield account and the account used for minting, so also for the escrow account of every IBC channel, the Hyperlane collateral account and the vault accounts, whenever the index rises from x to i the yield of the account is at least balance*(i-x)/x, minus two units and minus the value of one unit of principal for each earlier rounding against the account. The escrow account of a channel is rounded against only when coins come back over the channel, a packet of it is refunded, or a portal transfer names it as recipient. Hence, when a channel has a yield recipient and an index announcement is delivered, what is sent to the recipient or kept for a later attempt is at least the growth on all vouchers that exist on the other chain, up to that dust.", "quantifier": "every history of transactions from a fresh chain, every account, every later index, every channel and outcome of the IBC transfer", "why_tests_cant": "The loss is a sum of rounding errors over an unbounded history in which other users interleave with the account", "anchors": ["keeper/keeper.go: SendRestrictionFn", "keeper/msg_server.go: UpdateIndex, claimExternalYieldIBC"]}
{"id": "C95", "title": "Hyperlane vouchers are backed by coins", "statement": "On a chain that starts fresh, at every moment the balance of the warp account covers all USDN ever dispatched through warp tokens (by users and by the module's yield distribution) that has not come back, together with every Hyperlane amount that waits for a retry; from any state, the surplus falls by no more than what comes back.", "quantifier": "all reachable states and all histories of messages, with warp transfers that succeed, fail early or fail late", "why_tests_cant": "the coins and the dispatches are moved by different modules over a whole history; a retry that is dispatched twice or a share computed from the wrong total only shows in the sums over a history", "anchors": ["keeper/msg_server.go: claimExternalYieldHyperlane", "keeper/state.go: GetRetryAmountAndRemove, IncrementRetryAmount"]}
{"id": "C96", "title": "USDN that left over IBC can come home", "statement": "In every reachable state a transfer back of at most the vouchers on the other side of a channel is accepted and pays the receiver, and a packet in flight that was not received can time out or be refused: the message is accepted and the sender has the coins again, or, for the module's own packets, the amount waits for a retry.", "quantifier": "all reachable states, channels, receivers that are not blocked, amounts and packets in flight", "why_tests_cant": "whether the escrow account still holds the coins depends on all transfers, yield claims and retries of the history", "anchors": ["ibc_middleware.go: OnRecvPacket, OnTimeoutPacket, OnAcknowledgementPacket", "keeper/msg_server.go: claimExternalYieldIBC"]}
{"id": "C97", "title": "USDN that left through a Hyperlane warp token can come home", "statement": "The collateral recorded for a warp token covers everything dispatched through it that has not come back, and so any part of it can be transferred back: the transfer is accepted and pays the receiver.", "quantifier": "all histories from a fresh chain, all warp tokens, receivers and amounts", "why_tests_cant": "the module dispatches with the token record it read before the loop; whether the recorded collateral is right depends on all routes and the whole history", "anchors": ["keeper/msg_server.go: claimExternalYieldHyperlane", "keeper/msg_server_v2.go: SetYieldRecipient"]}
{"id": "C98", "title": "The recorded warp collateral is backed by coins", "statement": "The balance of the warp account covers the collateral recorded for all warp tokens together with every Hyperlane amount that waits for a retry.", "quantifier": "all histories from a fresh chain", "why_tests_cant": "needs a warp transfer that fails after it was booked, followed by further index updates", "anchors": ["keeper/msg_server.go: claimExternalYieldHyperlane"]}
{"id": "C99", "title": "Amounts given as text are read as the number they denote", "statement": "An amount that reaches the chain as text (a genesis file, a transaction field, an ICS-20 packet, a stored value) is read as follows. The text the chain itself writes for a number is read back as exactly that number. A text of digits that does not begin with 0 is read as the decimal number. A text of digits that begins with 0 is read as an octal number, and refused when it contains an 8 or 9. A sign in front negates or does nothing. Of all other texts exactly the integer literals of the Go language are numbers (binary, octal and hexadecimal after 0b, 0o and 0x, single underscores between digits or after a prefix). So 0100 in a genesis file or in a lock message means 64.", "quantifier": "all texts of any characters and any length, and all integers", "why_tests_cant": "The set of texts is infinite and the octal rule contradicts what a person writing a genesis file or a transaction by hand would expect; a test only covers texts its author thought of.", "anchors": ["ibc_middleware.go: AddAmountToRetry (math.NewIntFromString)", "genesis.go: InitGenesis (math.NewIntFromString)", "types/vaults/tx.pb.go: MsgLock.Unmarshal", "types/vaults/vaults.pb.go: Position.Unmarshal"]}
{"id": "C100", "title": "Once a cycle is over, nobody else can change what a flexible position earned in it, up to rounding", "statement": "If a user's flexible position is in place and nobody unlocks flexible positions of that user, then over any history the share of the position in the reward record of a cycle that is already over grows by at most one unit per payout of a flexible position of others (plus a rounding term below one unit); and while the index does not move, the rewards the query shows for the position drop by at most one unit per newer record and grow by at most one unit, and one per payout of others, per newer record.", "quantifier": "every reachable state, every flexible position and closed cycle, every history of messages in which nobody unlocks flexible positions of the user", "why_tests_cant": "The bound must hold for every interleaving of partial and full exits of any number of other users, whose rounding errors add up.", "anchors": ["keeper/msg_server_vaults.go: Unlock, ClaimRewards", "keeper/query_server_vaults.go: PendingRewards, PendingRewardsByProvider"]}
{"id": "C101", "title": "Vault rewards are paid out completely, in proportion to the principal that leaves", "statement": "The rewards recorded for a cycle are all paid to the holders of flexible positions: after the cycle is over, when a part of the record's principal has left, the same part of its rewards has been paid, up to one unit per payout, and when all of it has left at most one unit of rewards remains.", "quantifier": "every reachable state, every reward record, every history of messages (and upgrades of settings)", "why_tests_cant": "The claim is about sums over all exits of all users in all orders; the failing case needs an empty vault at an index update and is only visible over the whole future.", "anchors": ["keeper/msg_server.go: handleVaultsYieldSeasonOne", "keeper/msg_server_vaults.go: ClaimRewards, Unlock"]}
{"id": "C102", "title": "USDN on the other side of a Hyperlane route earns the growth of the index for the recipient of that route", "statement": "When an index announcement is delivered, a Hyperlane route with a yield recipient is credited with at least the growth of the index on the USDN that was dispatched through it and has not come back, up to four units (one more for each trillion dollars of yield) and one unit of principal for each time coins came back through a route; what is credited goes to the recipient in one message, or waits for the next announcement. Yield claimed while no route with collateral has a recipient is dispatched to nobody, then or later.", "quantifier": "every initial state, every history of messages, every delivered index announcement, every route with a recipient", "why_tests_cant": "It ties the amount paid at one announcement to the whole history of dispatches, returns and earlier announcements, with the roundings of all of them.", "anchors": ["keeper/msg_server.go: claimExternalYieldHyperlane, UpdateIndex", "keeper/keeper.go: SendRestrictionFn"]}
{"id": "C103", "title": "The Stats query names the chain to which the yield of each route goes", "statement": "The version-2 Stats query shows the recorded statistics and lists every route with external yield exactly once, with its recorded amount and the chain at its other end: the chain of the light client behind the channel, or the only domain with a router for the token; UNKNOWN only if there is no such chain. Every message with Hyperlane yield goes to the domain shown for its route.", "quantifier": "every reachable state whose routes are plain (known provider, no slash), every state of the IBC clients and routers, every delivered index announcement", "why_tests_cant": "The query and the payout use different code paths; that they agree must hold for every set of routes, routers and clients.", "anchors": ["keeper/query_server_v2.go: Stats, getIBCChainId, getHyperlaneChainId", "keeper/msg_server_v2.go: getHyperlaneRouter"]}
{"id": "C104", "title": "The rewards shown to all users of the flexible vault together are the vault's pending rewards", "statement": "Let every holder of flexible positions ask PendingRewardsByProvider. While positions and record totals are below 2*10^18 units, the answers together never exceed PendingRewards without the running cycle, and the vault account holds these coins. Conversely, if every payout of a flexible position so far claimed its rewards (as many RewardClaimed as flexible PositionUnlocked events), the answers together fall short of that by at most, per finished cycle, one unit per position and one more, plus the share of the principal no position stands for, which is at most one unit per payout so far. The flexible principal in the statistics exceeds that of the positions by no more than this either.", "quantifier": "all histories of messages from the start, all sets of users asked, all positions and reward records", "why_tests_cant": "how records drift from the positions they stand for depends on the whole history of partial payouts and roundings", "anchors": ["keeper/query_server_vaults.go PendingRewards PendingRewardsByProvider", "keeper/msg_server_vaults.go Unlock ClaimRewards", "keeper/keeper.go UpdateIndex"]}
{"id": "C105", "title": "The answer of a query arrives as it was given", "statement": "For every answer that holds a list, nested messages or a map (positions of an account, pending rewards by position, destination tokens, peers, yield recipients, retry amounts, version-2 statistics): a client that decodes the bytes the node encoded gets the same answer, entry by entry, with lists in the same order and maps in whatever order the node wrote them; the buffer the node allocates is exactly as long as what it writes; and no bytes whatever make the client's decoder panic, read outside the bytes or loop for ever.", "quantifier": "all answers whose values fit their Go types, all map orders; all byte strings for the decoder", "why_tests_cant": "unit tests encode a few answers; field lengths, repeated keys, truncated entries and lengths that overflow are unbounded in number", "anchors": ["types/v2/query.pb.go QueryStatsResponse.Unmarshal, MarshalToSizedBuffer, Size", "types/v2/query.pb.go QueryYieldRecipientsResponse, QueryRetryAmountsResponse", "types/portal/query.pb.go QueryPeersResponse, QueryDestinationTokensResponse", "types/vaults/query.pb.go QueryPositionsByProviderResponse, QueryPendingRewardsByProviderResponse"]}
{"id": "C106", "title": "Which query answers are the same bytes on every node", "statement": "The queries are marked safe to be asked inside a transaction, where every node must get the same bytes. The answers of Peers, YieldRecipients, RetryAmounts and version-2 Stats hold a map whose entries are written in an order the runtime chooses: such an answer is the same for every order exactly when the map has at most one entry, and with two or more entries two nodes in the same state can send different bytes (which decode to the same entries).", "quantifier": "all reachable states, all orders of the entries", "why_tests_cant": "the order of a Go map changes from run to run; a test sees one order and compares decoded values, not bytes across nodes", "anchors": ["proto/noble/dollar/v2/query.proto module_query_safe", "types/v2/query.pb.go MarshalToSizedBuffer", "types/portal/query.pb.go QueryPeersResponse.MarshalToSizedBuffer", "keeper/query_server_portal.go Peers", "keeper/query_server_v2.go Stats, YieldRecipients, RetryAmounts"]}
{"id": "C107", "title": "The command line names routes as the lists print them, and shows what was set", "statement": "On the command line a provider may be written in any letter case and nothing else is understood; yield-recipients lists a route with a recipient exactly if yield-recipient shows that recipient for the route, retry-amounts and retry-amount agree likewise, and after set-yield-recipient has been executed yield-recipient shows the new recipient for that route and the old answer for every other route. The command never signs a message for a provider that does not exist.", "quantifier": "all argument strings, all spellings, all routes, all reachable states whose routes belong to the two providers, all histories whose recipients were set with the command", "why_tests_cant": "The arguments are arbitrary strings of Unicode characters and the lists depend on the whole history of settings.", "anchors": ["client/cli/util.go: parseProvider", "client/cli/tx.go: TxSetYieldRecipient", "client/cli/query.go: QueryYieldRecipients, QueryYieldRecipient, QueryRetryAmounts, QueryRetryAmount", "keeper/query_server_v2.go", "keeper/msg_server_v2.go: SetYieldRecipient"]}
{"id": "C108", "title": "The order in which the bank debits and asks the restriction shows only in the holder count", "statement": "A bank that asks the module's send restriction before it debits the sender (as the bank in the repository's own tests does, and as a bank may do for all outputs of a multi-send at once) carries out exactly the same transfers and multi-sends as one that debits first, and leaves the same balances, principals and every other record; only the statistic of holders differs: it then never goes down with a transfer, and counts a new recipient once per output.", "quantifier": "all configurations, senders, recipients, amounts, lists of outputs and states", "why_tests_cant": "The tests run on the bank that asks first; that the result carries over to the real one is a statement about all states and transfers.", "anchors": ["keeper/keeper.go SendRestrictionFn", "utils/mocks/bank.go SendCoins", "keeper/state.go DecrementTotalHolders"]}
{"id": "C109", "title": "Nobody else can make an unlock expensive", "statement": "The list of positions a user is shown grows by at most one per accepted lock of that same user: no message of anybody else, and no delivery, adds a position to it. The records of vault rewards grow by at most one per message that changes the index. So the number of records a full unlock of a user has to read is at most (the user's positions plus the user's own accepted locks) times (one plus the reward records plus the changes of the index). The list of yield recipients, all of which an index update has to pay, grows only by accepted messages of the authority, one per message.", "quantifier": "every reachable state, every signed history from it, every user and vault", "why_tests_cant": "Whether some message of another user can add to what an unlock has to walk through is a statement about all messages in all histories.", "anchors": ["keeper/msg_server_vaults.go Lock", "keeper/msg_server_vaults.go Unlock", "keeper/state_vaults.go GetVaultsPositionsByProviderAndVault", "keeper/keeper.go UpdateIndex", "keeper/msg_server.go SetYieldRecipient"]}
{"id": "C110", "title": "Other coins and vesting locks do not matter", "statement": "An accepted transfer of a set of coins does to the module exactly what a transfer of the USDN in the set alone does, and moves every other coin one for one; a transfer without USDN changes nothing the module keeps or shows. Conversely the transfer goes through as soon as the transfer of its USDN alone does and the sender can spend every coin of the set. Coins locked by a vesting schedule can only make a transfer be refused. The same holds of a multi-send of sets of coins: to the module it is the multi-send of the USDN in its outputs, and every other coin moves one for one.", "quantifier": "every set of coins, every sender and recipient, every state and every vesting schedule", "why_tests_cant": "The send restriction is called with the whole set of coins; tests send USDN alone.", "anchors": ["keeper/keeper.go SendRestrictionFn"]}
{"id": "C111", "title": "Every USDN packet is recognised", "statement": "The bytes of an ICS-20 packet, whatever characters its receiver and memo contain, are read back by the outgoing wrapper and by the timeout and error-acknowledgement handlers as exactly the packet that was written: a USDN packet is refused on a channel without yield recipient and passed on otherwise, packets of other denominations always pass, and a returned packet of an escrow account queues exactly its own amount. No memo or receiver can make a USDN packet look like another one.", "quantifier": "every packet, every memo and receiver text, every channel and state", "why_tests_cant": "The wrapper lets through what it cannot decode; whether some text makes a USDN packet undecodable is a question about all texts.", "anchors": ["isc4_wrapper.go SendPacket", "ibc_middleware.go AddAmountToRetry"]}
{"id": "C112", "title": "The exported genesis file restores the chain, and what a wrong file does", "statement": "The JSON genesis file that a chain exports passes the validation of the module and, however its white space is laid out and in whatever order the import visits its maps, restores exactly the exported state (C39). A file with a field of another name is refused by validation and import. The fields of several words may also be given by their lowerCamelCase names. A field that is left out is read as zero and the file still passes the validation: without the vaults the import panics (empty collector); without the index it succeeds, the chain starts at index 0 instead of 10^12, and no transfer of dollars is possible.", "quantifier": "all reachable states with numbers in the range of their Go types, all layouts of the file, all map orders, all field names, all extra members", "why_tests_cant": "The file is a text; a test reads a handful of layouts and values, while the claim is about every state, every layout and every omitted or unknown field.", "anchors": ["module.go:AppModuleBasic.ValidateGenesis", "module.go:AppModule.InitGenesis", "module.go:AppModule.ExportGenesis", "genesis.go:InitGenesis", "genesis.go:ExportGenesis", "types/v2/genesis.go:Validate", "types/v2/genesis.pb.go:GenesisState"]}
{"id": "C113", "title": "An account has two spellings, a mistyped one is refused, and either works for users", "statement": "With the chain's address codec a text is read as an account exactly if it is the lower case or the upper case bech32 spelling of that account and the account has 1 to 255 bytes. Replacing up to six neighbouring characters, swapping two neighbours or changing a single character never gives the text of an account unless nothing but the case of the whole changes. A user may sign claims, locks, unlocks and transfers with either spelling, with the same outcome and the same effect on everything but the log. The authority and the portal owner are compared as text: the other spelling of the same account is refused, and the owner can hand over to it.", "quantifier": "every address, every text, every replacement of up to six neighbouring characters, every message, state and environment", "why_tests_cant": "There are 2^160 addresses and more misspellings; tests try a few. Whether two spellings of one account share positions and balances depends on every place that compares or stores the text.", "anchors": ["module.go: ProvideModule (address.Codec)", "keeper/msg_server.go: ClaimYield, SetPausedState, SetYieldRecipient", "keeper/msg_server_vaults.go: Lock, Unlock, ToUserVaultPositionModuleAccount", "keeper/msg_server_portal.go: Transfer, EnsureOwner, TransferOwnership"]}
{"id": "C114", "title": "The events that leave the chain can be read back and determine the state they speak of", "statement": "Every event of the module but the two named transfer_sent can be read back exactly from the type and the JSON attributes a node shows, as long as its numbers fit their types. The attributes are the fields of the message, in the strict order of their names. No two different events give the same ABCI event. Two histories that start in the same state and show the same log end with the same settings, index, sequence number of transfers, vault statistics and bridged supply. The recipient and the digest in the two transfer_sent events are raw bytes: different ones can be shown alike, so that only the typed event identifies a transfer.", "quantifier": "every event, every configuration, every pair of histories", "why_tests_cant": "Tests compare a few events with expected ones inside the process; whether a number, an account or a byte string survives JSON, and whether the whole log determines the state, concerns every value and every history.", "anchors": ["types/events.pb.go: YieldClaimed, IndexUpdated", "types/v2/events.pb.go: YieldRecipientSet", "types/vaults/events.pb.go: PositionLocked, PositionUnlocked, RewardClaimed", "types/portal/events.pb.go: MTokenReceived, USDNTokenSent, PeerUpdated", "keeper/msg_server_portal.go: Transfer"]}
{"id": "C115", "title": "What a hardware wallet signs is what is executed", "statement": "The JSON of the messages in a sign document (type name and fields, without empty fields) determines the messages: two lists of messages with the same JSON are the same, message by message, except that a missing amount looks like zero. A message with a missing amount never changes anything. Hence two messages that look the same to the signer and both do something are the same. There is one gap: a transfer is shown with the 32 bits its destination chain has on the wire but executed with the lower 16 bits.", "quantifier": "every list of messages, every state and environment, every transfer on the wire", "why_tests_cant": "The names and fields of all messages, with texts chosen by users and empty fields left out, must never collide; tests compare single documents.", "anchors": ["proto/noble/dollar/**/tx.proto: amino.name, amino.dont_omitempty", "types/codec.go: RegisterLegacyAminoCodec", "types/portal/codec.go: RegisterLegacyAminoCodec", "types/vaults/codec.go: RegisterLegacyAminoCodec", "types/v2/codec.go: RegisterLegacyAminoCodec"]}
{"id": "C116", "title": "Every REST path asks for at most one query, and every query without a slash can be asked for", "statement": "A path of the REST interface reaches a query exactly if it is the address given in the service definition, with accounts and identifiers as they stand, the provider by name or number and the chain as a numeral; or such an address followed by a colon, unless it ends with a slash. An address whose last segment ends with a colon, or has its only colon first, is not taken as it stands. The order in which the routes are registered does not matter: no path matches two of them. A query can be asked for if and only if its account or identifier has no slash, its provider is known and its chain has 32 bits.", "quantifier": "every path, every query, every order of the twenty routes", "why_tests_cant": "Paths are arbitrary texts with arguments chosen by users; tests try a few. That no two of twenty patterns overlap and that no argument leads to the wrong query concerns all texts.", "anchors": ["types/query.pb.gw.go: pattern_Query_Index_0, request_Query_Principal_0", "types/v2/query.pb.gw.go: pattern_Query_YieldRecipient_0, request_Query_YieldRecipient_0", "types/portal/query.pb.gw.go: pattern_Query_DestinationTokens_0", "types/vaults/query.pb.gw.go: pattern_Query_PendingRewardsByProvider_0", "module.go: RegisterGRPCGatewayRoutes"]}
{"id": "C117", "title": "An acknowledgement either pays a packet back and queues it again, or does neither", "statement": "The relayed acknowledgement of a USDN packet arrives as JSON text. If it is spelled as ICS-20 writes a result, only the packet is forgotten: no balance and no retry amount changes. If it is spelled as ICS-20 writes an error, the packet is refunded, and its amount is added to the channel's retry amount exactly if the escrow account had sent it as yield. Every other text (both members at once, an empty object, other spacing, other members, trailing characters) makes the transaction fail, and nothing of it stays. The committed result is the same for every order in which Go iterates over the members of the acknowledgement. The work done before a failure is not: with both members present the middleware writes the retry amount or does not, depending on that order.", "quantifier": "every acknowledgement text, every packet, memo, state and configuration, and every pair of iteration orders of the two decodings", "why_tests_cant": "Acknowledgements are chosen by the counterparty chain; Go randomises map iteration, so a test sees one order at a time, and the two decodings (middleware and transfer application) may see different ones.", "anchors": ["ibc_middleware.go: OnAcknowledgementPacket, AddAmountToRetry", "go.mod: ibc-go v8.7.0, gogoproto v1.7.0"]}
{"id": "C118", "title": "Every command line means exactly what its usage says", "statement": "For every list of words given to the transaction commands of the module, the chain receives a message if and only if the words are a documented command with arguments of the documented kinds, and then it is the message those arguments denote, signed by the sender; likewise every list of words given to the query commands makes exactly the documented query or none. Every message whose fields have the right types can be written, bytes in hexadecimal are read as those bytes, base64 is read as those bytes when their number is no multiple of three, hexadecimal after 0x is never read as the bytes meant, and no line carries a negative amount.", "quantifier": "all lists of words, all machines (files, keys, sender), all address codecs, all byte strings and integers", "why_tests_cant": "the words, the names of files and keys and the numerals are unbounded; the meaning of an argument depends on which of three readings applies first, and the amount is read by the chain, not by the command line", "anchors": ["module.go:AutoCLIOptions", "client/cli/tx.go", "client/cli/query.go", "types/portal/tx.pb.go", "types/vaults/tx.pb.go", "proto/noble/dollar/vaults/v1/vaults.proto"]}
{"id": "C119", "title": "Locking, unlocking and the pending-rewards queries never overflow", "statement": "In the first 2^39 messages of a chain that starts at a 64-bit index of at least 10^12, no addition, subtraction, multiplication or decimal operation that MsgLock, MsgUnlock or the two pending-rewards queries write down exceeds the 256 bits of an Int (315 of a decimal): the handlers with the overflow panic at every such operation give the same result, the same error and the same state as arithmetic on unbounded numbers, also in the sums over all positions of a user, all reward records and all pairs of both.", "quantifier": "all configurations, initial states, signed histories of up to 2^39 messages, next messages and providers", "why_tests_cant": "A sum overflows only with many or large terms; a test has a handful of positions and records, and cannot reach the sizes a long history can.", "anchors": ["keeper/msg_server_vaults.go:Lock", "keeper/msg_server_vaults.go:unlock", "keeper/msg_server_vaults.go:claimRewards", "keeper/query_server_vaults.go:PendingRewards", "keeper/query_server_vaults.go:PendingRewardsByProvider", "keeper/state_vaults.go:IncrementVaultTotalPrincipal"]}
{"id": "C120", "title": "What the REST interface returns says what the chain's state says", "statement": "For a GET request whose path asks a query: a client that reads the returned JSON by the documented field names learns exactly the answer of that query on the chain's state - the principal and claimable yield of an account, the index as an exact decimal, statistics, recipients, retry amounts, positions with their amounts and times, pending rewards, peers, destination tokens, nonce and pause states; there is a body exactly if the query has an answer, and no body for a path that asks nothing. No amount is a bare number: every number outside quotes is below 2^32 in absolute value.", "quantifier": "every path, query, account text, client and block context; every signed history of up to 2^39 messages of every well-formed chain; every order in which map entries are written", "why_tests_cant": "A test reads a few bodies of a few states; digits, quoting, base64 lengths, escapes in recipients' names and values near the ends of the number ranges are unbounded", "anchors": ["types/query.pb.gw.go", "types/query.pb.go:QueryIndexResponse", "types/v2/query.pb.go", "types/portal/query.pb.go", "types/vaults/query.pb.go", "keeper/query_server.go", "keeper/query_server_v2.go", "keeper/query_server_portal.go", "keeper/query_server_vaults.go", "module.go:RegisterGRPCGatewayRoutes"]}
{"id": "C121", "title": "The error code of a failed message tells why it failed", "statement": "When a message of the module fails with one of the module's registered errors, the codespace and the number the client is answered with hold exactly when the cause they name holds: wrong authority, module paused, index not above the current one, wrong amount, wrong vault (or a second lock in the same vault and second), wrong pause type, vault closed, no owner, not the owner, same owner, portal paused, not a registered peer (or an impossible one), no bridging path (or an impossible one), wrong recipient manager, wrong recipient length. No two registered errors share codespace and number, no failed message is reported with number 0 (which means success), a message answered with a code changed nothing, and in a transaction of several messages the code is the one of the first message that fails.", "quantifier": "every message with every argument, every environment, every state, every transaction", "why_tests_cant": "A test can look at some refused messages; that a code is returned only for its cause, and always for it, quantifies over all states and arguments, including failures deep inside sends, index updates and yield claims.", "anchors": ["types/errors.go", "types/vaults/errors.go", "types/portal/errors.go", "keeper/msg_server.go:ClaimYield", "keeper/msg_server_v2.go:SetYieldRecipient", "keeper/msg_server_portal.go", "keeper/msg_server_vaults.go", "keeper/keeper.go:Deliver"]}
{"id": "C122", "title": "No message overflows the chain's integers", "statement": "On a chain that starts with an index of at least one and below 2^63 and no more than 2^39 yield recipients, after any history of up to 2^39 messages, every message of any kind (deliveries with their distribution of yield to the vaults, IBC channels and Hyperlane routes, portal transfers, claims, locks and unlocks, bank sends and multi-sends with any number of outputs, IBC transfers, timeouts and acknowledgements, warp transfers in and out) has exactly the effect it would have with unbounded integers: no addition, subtraction, multiplication or decimal operation panics for want of bits, so none of them can block a delivery or an unlock. The same holds for the query of anybody's claimable yield.", "quantifier": "every configuration, every starting state of a fresh chain with such an index, every history of up to 2^39 messages signed by users in any environments (failing transfers included), every next message, every account", "why_tests_cant": "the largest numbers that can occur are reached by adversarial histories of billions of messages (failed warp transfers that book collateral again and again, negative principals, thousands of recipients); a test with sample amounts never gets near the limit and cannot tell which intermediate product would need 257 bits", "anchors": ["keeper/keeper.go: SendRestrictionFn, GetYield, HandlePayload", "keeper/msg_server.go: Burn, Mint, UpdateIndex, ClaimYield, claimModuleYield", "keeper/state.go: DecrementTotalPrincipal, IncrementTotalPrincipal, IncrementTotalYieldAccrued, IncrementRetryAmount", "keeper/math.go", "keeper/msg_server_vaults.go: Lock, Unlock", "ibc_middleware.go"]}
{"id": "C123", "title": "An explorer that reads the JSON log of a node knows the chain", "statement": "On a chain with the usual start, for any history of up to 2^39 messages, an explorer that sees nothing but the events as the JSON API of a node shows them can read back every typed event exactly: what it reads is the list of typed events of the chain, in order, with no event missing, added or changed.  If it knows the state at the start and follows these events, and counts the sequence numbers of the untyped transfer events, it never meets an event it cannot follow, and ends with the chain's own pause flags, owner, peers, paths, yield recipients, index, sequence number, vault statistics and bridged supply.", "quantifier": "every start with no events, every signed history of up to 2^39 messages whose numbers fit the types of their fields, every address codec that reads back what it writes (bech32 is shown to be one)", "why_tests_cant": "whether an event is read back depends on every number in it fitting the type of its field, which is a property of the whole history before it; a test reads the events of a few messages", "anchors": ["keeper/msg_server.go", "keeper/msg_server_portal.go", "keeper/msg_server_vaults.go", "keeper/keeper.go:UpdateIndex", "types/events.pb.go", "types/portal/events.pb.go", "types/vaults/events.pb.go"]}
{"id": "C124", "title": "Bytes in, bytes out: the whole node does what the model says", "statement": "Take a node that receives the module's messages as bytes, reads the module's state from the bytes of its store before every message, computes with the chain's bounded integers, and writes the state back as bytes. Whatever bytes arrive, well-formed or not, in up to 2^39 inputs: the node never finds a store it cannot read, and after every input the state in its store is the one that the messages that could be decoded produce with unbounded integers. The JSON body of a REST request to the node is read as the answer of the query in that state, and an explorer of the node's JSON log ends with the settings, index, statistics and bridged supply that are in the store. Messages written by a client are the messages executed.", "quantifier": "every well-formed chain and start in the range of the Go types, every list of up to 2^39 inputs (any bytes as any message type, any action of other modules), every path that asks a query, every parser of integers that the codec allows", "why_tests_cant": "it composes the codecs, the store, the arithmetic and the interfaces over whole histories of arbitrary bytes; tests call handlers with Go values", "anchors": ["module.go:RegisterServices", "keeper/keeper.go:NewKeeper", "keeper/msg_server.go", "keeper/msg_server_portal.go", "keeper/msg_server_vaults.go", "keeper/state.go", "types/tx.pb.go", "types/query.pb.gw.go"]}
{"id": "C125", "title": "A gRPC client of a node learns what is in the node's store", "statement": "Ask a node that has received any bytes, as in C124, any of the twenty queries over gRPC: the request that a generated client writes is read by the method's handler as the query that was meant, and the bytes of the answer are read by the client as the answer of that query in the state that the decoded messages produce; the call fails exactly if the query has no answer there. No request, whatever its bytes, crashes the decoder, and every call that succeeds returns the answer of a query of the method that was called.", "quantifier": "every well-formed chain and start, every list of up to 2^39 inputs, every query whose arguments are in the range of their Go types, every method name and request bytes, every IBC client and Hyperlane environment", "why_tests_cant": "The keeper's tests call the query server with Go structs; the bytes of requests and answers, their composition with the store and hostile requests are not exercised.", "anchors": ["types/query.pb.go _Query_Index_Handler, Unmarshal, MarshalToSizedBuffer", "types/v2/query.pb.go", "types/portal/query.pb.go", "types/vaults/query.pb.go", "keeper/query_server.go", "keeper/query_server_v2.go", "keeper/query_server_portal.go", "keeper/query_server_vaults.go"]}
