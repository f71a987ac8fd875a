# Formal model of corundum: design

## Subject

corundum is an FPGA NIC: synthesizable RTL (`fpga/common/rtl`, `fpga/lib/*/rtl`),
a Python driver and Python bus models used for simulation (`fpga/common/tb/mqnic.py`,
`fpga/lib/*/tb/*.py`), a Linux driver (`modules/mqnic`) and user-space tools (`utils`, `lib`).
The model covers the logic of these parts as total Lean functions.  Nothing in `/repo` is
executed; the tie between code and model is the reading of the source, cited at each definition.

## Trusted base

* Lean 4.33.0 kernel.
* Axioms: at most `propext`, `Classical.choice`, `Quot.sound` (each property theorem is
  followed by `#print axioms` in `lean/Verif/Audit.lean`; no other axiom is used, no `sorry`,
  no `native_decide`, no `bv_decide`).
* The faithfulness of the hand-written definitions to the cited lines.
* Modelling conventions below.

## Modelling conventions

* Python integers are `Int`/`Nat`; Verilog vectors are `BitVec`, or `Nat` reduced modulo `2^w`
  where the wrap-around is explicit in the definition.
* A clocked Verilog `always` block becomes a function `step : State -> Input -> State x Output`.
  Non-blocking assignments read the old state. `rst` is modelled by the initial state (and, where
  useful, by an explicit reset input). Metastability, X-propagation and timing are not modelled.
* Python generators / coroutines (`async def`, `yield clk.posedge`) become step functions or the
  list of bus transactions they emit. Python `assert`/exceptions are explicit error values.
* Memory shared by host and device (DMA buffers) is part of the state; DMA writes by the device are
  operations that may be interleaved arbitrarily with driver calls at the granularity of one ring entry.
  Weak memory ordering, cache coherence and PCIe ordering are not modelled.

## Plan per property

| id | model | proof |
|----|-------|-------|
| C01 | `Resource` free list with sorted insert; bitmap allocator | invariant over op lists (held ++ free is a permutation of range) |
| C02 | walk over an arbitrary register file `Nat -> Nat` | termination by visited set; exactness against an inductive chain relation |
| C03 | the pointer-update formula | modular arithmetic |
| C04 | ring state with `tx_info`, completion ring, driver ops | invariant over all op sequences |
| C05, C06 | the segmentation loops | induction on the number of segments |
| C07 | completion ring with phase bits, producer/consumer ops | refinement to a FIFO |
| C08 | RX ring with buffers | invariant; delivered data equals buffer content |
| C09 | C driver RX completion loop | expected false: prove a counterexample and a partial theorem |
| C10, C11, C13 | cycle-accurate `queue_manager` pipeline, any depth >= 2 | refinement of the pipeline to an atomic transaction machine, then invariants of the latter |
| C12 | address expression | arithmetic |
| C14, C15 | `cpl_queue_manager` atomic machine and pipeline | same technique |
| C16, C17, C18 | scheduler transaction machine | invariants over histories; counterexample for the `SCHED_CTRL_ENABLE` case of C18 |
| C19-C22, C24 | Python frame builders/parsers | round-trip theorems |
| C23, C30 | ones' complement sum | arithmetic modulo 65535 |
| C25 | block encoder/decoder over 8 lanes | case analysis over block types |
| C26, C27, C28 | LFSR as GF(2)-linear map on bit lists | induction over the stream, linearity |
| C29, C43 | hash datapath, indirection | induction over beats |
| C31, C35 | FIFO and skid buffer clocked models | refinement to a list queue |
| C32, C33 | arbiter and encoder tree | induction on tree depth; ranking argument for fairness |
| C34 | encoder and decoder as byte stream transducers | induction over the frame |
| C36-C38 | bus master transaction lists and memory | induction over beats |
| C39, C40 | PTP time accumulator, serialiser | invariants, round trip |
| C41, C42 | C arithmetic | arithmetic; C41 expected to hold only partially |
| C48-C52 | transactions as functions on a flat memory | induction over the request and completion loops |
| C58, C59 | transition systems of card and driver, any interleaving | a token per completion queue: armed, event under way, being polled, or arm command under way |
| C60-C62 | fields as sums of disjoint bit ranges | pack then unpack; byte enables and parity bit by bit |
| C63 | cycle steps of source and sink over a table of `tuser` layouts | delivered ++ on the bus ++ loaded ++ queued = sent; field extraction from an or of disjoint fields; a decreasing measure |
| C64 | clock edges of the engine with a monitor of its interfaces | invariant: table rows of requests in flight agree with the monitor; commits ++ offered = those due among the retired |
| C65 | clock edges of the pointer logic with the packets in the buffer | invariant: packets follow each other from the read to the write pointer, counted without wrapping; placed within one lap, hence disjoint |
| C66 | clock edges of the transmit engine with a monitor of its interfaces | invariant: the table row of every request in flight agrees with what the monitor saw; outputs so far plus the one offered equal the list computed from the requests; the buffer is the one of C65 |
| C67 | clock edges of the receive engine with a monitor of its interfaces | invariant: the table row of every request in flight agrees with what the monitor saw; outputs so far plus the one offered equal the list computed from the requests; the buffer is the one of C65 |
| C68 | clock edges of the descriptor fetch engine with a monitor of its interfaces | invariant: the table row of every granted block not over yet agrees with the monitor; what was taken plus what is on offer equals the list computed from requests and responses; a count of free slots shows that a response always finds one |
| C69 | clock edges of the statistics collector with a count of what arrived and what was reported | invariant: reported + kept in memory + accumulator = arrived; the scan position and the due marks bound the time to the next report |
| C70 | clock edges of the statistics counters with the history of accepted increments | invariant: memory = sum of the history older than the pipeline; each stage agrees with its entry of the history and no two stages that write share a counter |
| C71 | clock edges of the transmit checksum module with the frames taken and the words sent | invariant in two parts: items in the adder tree + accumulator = frames taken; sent + output registers + FIFO = frames taken, with the insertion registers determined by the position in the frame |
| C72 | request registers of the DMA read interface at each request | case split on the six request sizes and the four branches; then induction on the remaining length |
| C73 | beats of a completion as write commands to the RAM segments | arithmetic modulo bus, RAM word and RAM size; composition lemma for adjacent ranges; induction on the beats and on the completions |
| C74 | events of the DMA read interface: descriptor, request, tag, completion, beat, error, release, write done, status; clock edges of its status FIFO | five invariants: tags, operations (counters count requests modulo 2^(w+1)), numbers and errors, writes per segment, data (the RAM with all writes on the way applied) |
| C75, C76 | events of the DMA write interface: descriptor, entry, read command, reads of a beat, answer of a segment, TLP, beat, sequence number, finish | a TLP by itself: beats in closed form; the engine: pointers as counters modulo 2^(w+1), one equation for the queue of beats (read = being sent + to be sent), answers per segment, TLPs as a list of closed forms; a measure for termination |
| C77 | clock edges of the TLP counter | invariants; explicit runs for the exceptions |
| C78, C79 | clock edges of `irq_rate_limit.v` | an invariant ties the deadline of each vector to ghost time; counting takes and gives; a measure for the scan |
| C80-C82 | clock edges of `pcie_msix.v` | invariant on pending bits; where the words of a message were read; distance of the scan from a vector as a measure |
| C83, C84 | clock edges of the arbitrated multiplexers, one model for all | the beats of an input are what came out, then those in the output registers and the input register; distance of the arbiter from an input as a measure |
| C85-C87 | clock edges of `dma_ram_demux_rd.v`, `dma_ram_demux_wr.v` | FIFOs as lists; ports of commands are those reported, then the one being waited for, then the FIFO; a measure for progress |
| C88 | tags of the multiplexers of C83, their status and data demultiplexers | arithmetic of tags; C83, C85 |
| C89 | segments of `PcieIfSource` and `PcieIfSink`, coroutine steps as events | a segment put and read is the same part of a frame; receiving what is on its way brings the sink in step with the source |
| C90 | parity functions of `pcie_if.py` | bit by bit |
| C91 | registers as tables of fields and assignments, one entry for each line of code | per table a check evaluated by the kernel that fields do not overlap and each bit is written from its own place; lemmas give the bits of reads and writes |
| C92 | MSI of root complex and devices on top of C91 | each configured device owns 32 message numbers; its handlers are those registered since |
| C93 | XGMII source and sink, a clock edge per step | the words on the wire are the characters of the frame cut into words; the sink is always in a phase that determines the frame it will deliver |
| C94 | ghost: word history | balance of gaps minus configured gap over every suffix of the gaps so far, tied to the deficit count |
| C95 | GMII, MII, RGMII source and sink | phases as for C93; nibbles put together by induction over the bytes; RGMII is the GMII stream delayed by four words |
| C96 | BASE-R source and sink, a clock edge per step | simulation: the source is an XGMII source whose words are encoded and scrambled, the sink an XGMII sink reading the decoded words; the scrambler states agree on their 58 bits |
| C97–C99 | driver objects and queue manager registers, a call per step | invariant: each kind of queue number is owned by at most one open object (`Own`), its registers are those of the object; loops of `Interface.open` by induction on the number of queues |
| C100, C101 | coroutines, tags and completion queues as a transition system, one atomic section of a coroutine per step | invariant: tags of outstanding operations are distinct and marked, queue of a tag plus what is under way plus what was taken is the answer to its request; measure for termination; completions of a read joined by `cplLoop_spec` |
| C102 | events: edges of either clock in any order, arrival of any bits on the crossing wires | gray code changes one bit per step, so a mixture of old and new bits is one of the two; each side is a synchronous FIFO (C31) with an old pointer of the other; invariant of the update handshake; measure for draining |
| C103, C104, C105 | walk of a packet up and down the tree of C55-C57, as functions on the tree | layout left by enumeration as a recursive predicate; a packet aimed at one function is passed by exactly the bridges above it; induction over the tree |
| C106, C107, C108 | step function per clock edge and variant; lanes as lists | what is held in the registers, as a list of bytes and frame ends: delivered ++ held = accepted; segments left as a measure; invariant on the lanes in use |
| C109, C110, C111 | step function per clock edge | counters as counts over the last headers or intervals; distance to the right alignment as a measure for the search; a closed form for one whole time interval |
| C112, C113, C114, C115 | step function per clock edge | closed form of the time as a sum over the history, the look ahead registers being that sum less one second; for the output a machine over plain numbers, simulated by the registers, with bounds on the distance to the last edge |
| C116, C117 | generator as a function from register lists to table words; step function per clock edge for the module | the module is simulated by an interpreter that does one table word per step; the interpreter is run over the grammar of tables; the operations are then folded over a model of the device |
| C118, C119, C120 | step function per clock edge for source and sink | phase invariant: position on the line and age of the pending message as functions of the edge number; from it the exact edges at which messages take effect; then the clocks are compared with a fixed delay |
| C121, C122, C123 | transition system: calls, generators that go on, time | invariant over the waiting generators: a transmitter exists while anything waits, and the wire is free in time (C121); with calls that do not overlap there is one transmitter, and delivered, in flight and waiting together are what one wire would deliver (C122) |
| C124, C125, C126 | transition system: tasks, semaphores with their waiters, tools | permits are conserved: value, futures that are done and jobs that hold one add up to the limit; undone waiters exist only with value 0 or a done one; rank of jobs (C125); splitting a joined name at its first hyphen (C126) |
| C127, C128, C129 | one step per clock edge; ghost: frames handed over | closed form of a counter that is set and counted down (C127); invariants over flags and what the partner was told, checked over all flags (C128); the state while the refresh counter runs (C129) |
| C130, C131 | one step per clock edge; ghost: commands handed over | invariant: the commands are complete groups for earlier slots and a part of the group of the current slot, given by the phase and the lists (C130); ranks that fall at every edge (C131) |
| C132, C133, C134 | one step per clock edge; ghost: times as numbers of nanoseconds | case analysis over all states (C132); the registers follow a machine with plain numbers whose times lie on the grid of slots, by the stage: ahead, catching up, in step, locked (C133); a rank that falls while catching up (C134) |
| C135, C136, C137, C138, C139 | one step per clock edge; ghost: lists of transfers and requests accepted and put out | the lanes of a control frame are those of its 60 bytes, by induction over the offsets; the stream put out is a list of pieces, by induction over the cycles; the parser over a frame, by induction over its transfers |
| C140 | one step per change of the signal or run of a handler; ghost: the runs | edges are at most the entries queued, by induction over the events |
| C141, C142 | lists of commands, of words on the channels and of responses | the invariant of the loop over the words: position in the data and in the address agree; induction over the words, then over the commands |
| C143 | one step per descriptor or transfer accepted; output: commands of the segments and status entries | the commands of a transfer write a range of bytes, by induction over the segments; invariant: bytes left and the registers agree; induction over the transfers, then over the frames |
| C144 | one step per clock edge; ghost: commands made and taken, entries made | invariant: FIFO lengths by the age of the half full flags (16, 17, 18), entries taken out plus writes counted are the writes done |
| C145 | list of descriptors; one queue of read addresses per segment | the segments of the bytes of a transfer are those of its mask; induction over the cycles of a descriptor with the commands of later descriptors behind |
| C146, C147 | one step per clock edge; monitor of the ports: an access is a run of cycles with the enable high | invariant: accesses over plus the one held make up what was taken, counter and age of the access add up to TIMEOUT-1; cases access ends, goes on, none |
| C148 | one step per clock edge; output pulses counted | the counter is the backlog of a queue without limit while that fits; induction over the cycles |
| C149 | one step per clock edge; transfers taken and put out recorded | invariant: put out plus held is the list taken with the time of the first of each frame; the frame register says whether a frame is open |
| C150 | one step per clock edge; segments taken and given to each port recorded | given plus held for a port is a function of the segments taken; on a list of TLPs that function is a filter |
| C151 | one step per clock edge; transfers taken and put out recorded | once half full, FIFO entries plus transfers in the stages plus ready bits on their way to the input never grow, and are at most half the FIFO plus 2 LENGTH + 1 |
| C152 | a step is an edge of either clock or of both; accesses asked for, seen and answered recorded | what holds in each of the six reachable pairs of states of the two machines; a rank that each step of the handshake lowers |
| C153 | the calls are lists of edges with the register writes among them, run on the model of C152 | from an enable bit that reads 0 the writes keep the contract of C152, whose result theorem then applies before and after |
| C154 | the functions on registers as a map, with the outcome of each access given | what a masked write does to each bit; induction on the table |
| C155 | one step per clock edge; types of TLPs by their meaning | each segment adds the credits of the TLP it begins; all codes of a type by cases |
| C156 | the tables of presets as data, written by the functions of C154 | states that agree outside of the fields still to be written agree afterwards; coverage of every preset by every other evaluated on the tables |
| C157 | one step per clock edge, any number of outputs | what an output has been given and what is inside for it is what was taken; input ready only with the second register free |
| C158 | one step per clock edge, any number of outputs | as C157; the input is ready only if the output stage is, also after a dropped frame, as the second register is free while a frame is dropped |
| C159 | one step per clock edge | the beats of the frame put out are those of the frame monitored in the state of transfer, none when idle |
| C160 | beats taken and given in a run | the first beat of a frame is padded, others keep their bytes; induction over beats and frames |
| C161 | conversion of beats; start of packet over a run | the loop for the empty bytes by induction over lanes |
| C162 | one step per clock edge with the board as a shift register | the bits clocked in a pass are the LEDs if no change is pending; a number of steps to rest that goes down |


















| C53-C57 | allocation and enumeration as functions of limits and register lists | induction over the tree; bit-level lemmas for masks |

Status per property is kept in `MANIFEST.json`.

## What is modelled, by area

| area | module | source | left out |
|------|--------|--------|----------|
| C01 | `Model/Resource` | `mqnic.py` Resource, `mqnic_res.c` | locking (each call is atomic) |
| C02 | `Model/RegBlock` | `mqnic.py` RegBlockList, `mqnic_reg_block.c`, `lib/mqnic/reg_block.c` | PCIe errors |
| C03 | `Model/Pointers` | 16-bit register reads of the Python and C drivers | |
| C04, C08 | `Model/Driver` | `mqnic.py` packets, Txq, Rxq, completion handlers | awaits inside one handler half; see the atomic steps in `Op` |
| C05, C06 | `Model/Segments` | descriptor packing of both drivers | |
| C07 | `Model/CplRing` | completion and event ring polling of `mqnic.py`, `mqnic_cq.c`, `mqnic_eq.c` | |
| C09 | `Model/LinuxRx` | `mqnic_rx.c` | NAPI and page pool internals |
| C10-C13 | `Model/QueueManager` | `queue_manager.v`, cycle level | read side of unused registers |
| C14, C15 | `Model/CplQueue` | `cpl_queue_manager.v`, cycle level | |
| C16-C18, C46 | `Model/Sched` | `tx_scheduler_rr.v`, cycle level | FIFO latency is an input |
| C19-C23 | `Model/Struct`, `Model/Frames` | `eth_ep.py`, `arp_ep.py`, `ip_ep.py`, `udp_ep.py` | source/sink classes |
| C24 | `Model/AxisFrame` | `axis_ep.py` AXIStreamFrame | |
| C25 | `Model/BaseR` | `xgmii_baser_enc_64.v`, `xgmii_baser_dec_64.v`, `baser.py` | bit-error counters |
| C26-C28 | `Model/Lfsr`, `Model/Scrambler`, `Model/Crc` | `lfsr.v`, `eth_phy_10g_*_if.v`, `axis_eth_fcs.v` | serdes pipelines (pure delay) |
| C29 | `Model/RxHash` | `rx_hash.v`, test bench hash | |
| C30 | `Model/RxCsum` | `rx_checksum.v` | reset in mid frame |
| C31 | `Model/AxisFifo` | `axis_fifo.v`, all modes | reset |
| C32, C33 | `Model/Arbiter`, `Model/PriorityEncoder` | `arbiter.v`, `priority_encoder.v` | |
| C34 | `Model/Cobs` | `axis_cobs_encode.v`, `axis_cobs_decode.v` | FIFOs are arbitrary order-preserving queues |
| C35 | `Model/AxisRegister` | `axis_register.v`, three register types | |
| C36, C37 | `Model/Axi` | `axi.py`, `axil.py` masters and RAM | response-channel timing |
| C38 | `Model/PsdpRam` | `dma_psdp_ram.py` | pipeline delays |
| C39, C40 | `Model/Ptp` | `ptp_td.py` | decimal front ends |
| C41 | `Model/CplTs` | `mqnic_ptp.c` timestamp extension | |
| C42 | `Model/Timespec` | `utils/timespec.c` | 64-bit overflow, floating point |
| C43, C47 | `Model/QueueMap` | `mqnic_rx_queue_map.v` | register read port |
| C44, C45 | `Model/LinuxTx` | `mqnic_tx.c`, interleaved at memory accesses | weak memory order |
| C48-C50, C52 | `Model/Tlp` | `pcie.py` TLP byte enables, RootComplex and Function memory and IO access | timeouts, credits, tags beyond matching |
| C51 | `Model/TlpPack` | `pcie.py` TLP.pack, TLP.unpack, PcieId | |
| C53 | `Model/PcieAlloc` | `pcie.py` alloc_region, find_region | floating-point log2 |
| C54 | `Model/PcieCap` | `pcie.py` PcieCapList | register contents other than the header |
| C58 | `Model/Wake` | the interrupt path of `mqnic.py`: `interrupt_handler`, `process_eq`, `process_*_cq`, `arm`, with the card's completion and event queues at transaction level, in every interleaving | phase bits (C07), pointer width, `Interface.close`; FIFO back-pressure of events (C15) |
| C59 | `Model/WakeLinux` | `mqnic_eq.c`, `mqnic_rx.c`, `mqnic_tx.c` interrupt and poll functions with NAPI | as C58; `napi_disable`, budget 0 polls |
| C60-C62 | `Model/UsTlp` | `TLP_us`, `USPcieFrame` of `pcie_us.py`:59-645 | exceptions are `none`; `unpack_*` start from a new object |
| C63 | `Model/UsStream` | the eight CQ/CC/RQ/RC source and sink classes of `pcie_us.py`:646-1728, as one pair with a layout table | reset during traffic; `recv`/`wait` events; widths below 256 bits share the 256-bit layout as in the code |
| C64 | `Model/CplWrite` | `cpl_write.v` complete, one step per clock edge, next to a monitor that only watches the interfaces | table sizes that are not powers of two; reset during traffic; the two stage read pipeline of the table (:262-305), which delays the word read |
| C65 | `Model/BufRing` | the buffer pointers of `tx_engine.v` and `rx_engine.v` (space check, placing, releasing) with the RAM contents | descriptor table and completions; offsets other than zero; sizes which are not powers of two |
| C66 | `Model/TxEngine` | `tx_engine.v`: requests, descriptor fetches, DMA reads, transmit and checksum commands, completions, statuses | reset in operation; the output register of DMA read descriptors; DMA errors; table sizes which are not powers of two |
| C67 | `Model/RxEngine` | `rx_engine.v`: requests, receive orders, queue map answers, descriptor fetches, DMA writes, checksums, completions, statuses | reset in operation; the output register of DMA write descriptors; DMA errors; table sizes which are not powers of two; a change of the receive size in operation (see C65) |
| C68 | `Model/DescFetch` | `desc_fetch.v`: requests, dequeue requests and responses, status, DMA reads, commits, read commands to the stream client | reset in operation; `dma_client_axis_source` itself (the read command stands for the frame it sends); DMA errors (ignored by the engine); table or descriptor sizes which are not powers of two |
| C69 | `Model/StatsCollect` | `stats_collect.v`: accumulators, scan, memory, update timer, output | reset in operation |
| C70 | `Model/StatsCounter` | `stats_counter.v`: clearing, pipeline, hazard check, read channel, increments | write channels; reset in operation |
| C71 | `Model/TxCsum` | `tx_checksum.v`: command, masking, adder tree, accumulator, insertion, output registers | the inside of the two FIFOs (C31); reset in operation |
| C72 | `Model/DmaRdReq` | `dma_if_pcie_rd.v`: TLP size computation, header, request registers | header fields that are constant, the 3DW/4DW choice; the wait for tags and credits |
| C73 | `Model/DmaRdCpl` | `dma_if_pcie_rd.v`: address, offset and count of each beat, segment masks, byte enables, segment addresses, data rotation | completions with errors; the delay of the pipeline and of the segment FIFOs (writes are applied in order) |
| C74 | `Model/DmaRd`, `Model/DmaRdFull` | `dma_if_pcie_rd.v`: operation table, tag table and FIFOs, status FIFO, write acknowledgements, status output | order of events within a clock edge as stated in the header of the model; the table entry of a tag is written with the request; credits and the transmit register only delay and are left open; reset in operation |
| C75, C76 | `Model/DmaWrReq`, `Model/DmaWr` | `dma_if_pcie_wr.v`: splitting, RAM reads, header, data, operation table, mask FIFO, sequence numbers, status | order of events free; commands of a segment are a queue; output register; statistics outputs; reset in operation |
| C77 | `Model/DmaLimit` | `dma_if_pcie_wr.v`, `dma_if_pcie_rd.v`: counter of TLPs in flight | all else is input |
| C78, C79 | `Model/IrqRate` | `irq_rate_limit.v` | reset in operation |
| C80-C82 | `Model/Msix` | `pcie_msix.v`: state machine, pending bits, TLP | AXI-lite access to table and pending bits (the table is an input of each cycle); constant fields of the TLP header; reset in operation |
| C83, C84 | `Model/ArbMux` | `desc_op_mux.v`, `cpl_op_mux.v`, `tx_req_mux.v`, `event_mux.v`, `dma_if_desc_mux.v` (request paths), `axis_arb_mux.v` | the fields of a beat (an arbitrary type); tuser/tid/tdest rewriting; reset in operation |
| C85-C87 | `Model/RamDemux` | `dma_ram_demux_rd.v`, `dma_ram_demux_wr.v`, one segment | reset in operation; S_RAM_SEL_WIDTH = 0 as width 0 |
| C88 | `Model/TagMux` | status and data paths of `desc_op_mux.v`, `cpl_op_mux.v`, `tx_req_mux.v`, `dma_if_desc_mux.v` | fields other than tag and select (an arbitrary type) |
| C89, C90 | `Model/PcieIf` | `pcie_if.py`: frames, parity, source, sink, bus | reset, queue limits, logging; signals that are absent |
| C91 | `Model/CfgSpace` | `pcie.py`: configuration registers of functions, endpoints, bridges, capabilities, `config_read`, `config_write` | extended capabilities, routing of configuration TLPs (C55-C57), completions, time-outs |
| C92 | `Model/Msi` | `pcie.py`: `configure_msi`, registration, `issue_msi_interrupt`, `msi_region_write` | transport of the write TLP; MSI-X; signals (callbacks only) |
| C93, C94 | `Model/Xgmii` | `xgmii_ep.py`: frames, source, sink | logging, `wait`, simulation time stamps, the FCS |
| C95 | `Model/Gmii` | `gmii_ep.py`, `mii_ep.py`, `rgmii_ep.py`: frames, sources, sinks | signal delays between the two clocks of RGMII, logging, `mii_select` changing during a run |
| C96 | `Model/BaseRSerdes` | `baser_serdes_ep.py`: source, block encoder, scrambler, bit reversal, descrambler, decoder, sink | slip and gearbox signals, logging, time stamps, different `enable` on the two sides |
| C97–C99 | `Model/Lifecycle` | `mqnic.py`: `Eq`, `Cq`, `Txq`, `Rxq` open, close, enable, disable, arm, post; `Interface.init` (queue part), `open`, `close`; register writes of `queue_manager.v`, `cpl_queue_manager.v` as far as these are used | the data path (C04, C10–C15), active tracking in the queue managers, two calls overlapping in time, scheduler and port objects, indirection table |
| C100, C101 | `Model/Requester` | `pcie_if.py`: `recv_cpl`, `alloc_tag`, `release_tag`, `perform_nonposted_operation`, `dma_mem_read`; completions from the completer of `pcie.py` | streams between the device and the completer (C89, C90), flow control, the class `Tlp` (external package, taken as that of `pcie.py`) |
| C102 | `Model/AsyncFifo` | `axis_async_fifo.v`: pointers and their synchronizers, commit pointer handshake, write logic of all modes, memory, pipeline, output FIFO, pausing | reset while in use, depth outputs, status pulses on the read side; metastability is bits arriving at any time |
| C103-C105 | `Model/PcieRoute` | `pcie.py`: `Bridge.upstream_recv`, `downstream_recv`, `send`, `SwitchUpstreamPort.route_downstream_tlp`, `Device.upstream_recv`, `RootComplex.send`, for completions, ID routed messages, memory and IO requests; unsupported request answers | link delays and queues, broadcast and local messages, how functions handle what they get (C48-C52); capture of bus numbers |
| C106-C108 | `Model/AxisAdapter` | `axis_adapter.v`: all three variants, with handshakes and reset | widths that are no multiples of each other (the code does not check); `tkeep` wider than the lanes in use; register contents without a width |
| C109-C111 | `Model/PhyRx` | `eth_phy_10g_rx_frame_sync.v`, `_ber_mon.v`, `_watchdog.v` | the transceiver (assumed in `Signal`: one slip per rising edge, settled within the pause, a wrong alignment shows a bad header within 64); the asynchronous part of the reset request |
| C112-C114 | `Model/PtpClock` | `tb/ptp.py` PtpClock, `ptp_clock.v` | the simulated clock's `set_*` between edges only; output pipeline registers of `PIPELINE_OUTPUT` |
| C115 | `Model/Perout` | `ptp_perout.v` | `FNS_ENABLE = 0`; time not normalised |
| C116, C117 | `Model/I2cInit` | `si5341_i2c_init.py` (generator and module template) | reading the CSV files; template substitution (the table is the list of words); `start` held high; the I2C master below the command and data streams |
| C118-C120 | `Model/PtpTd` | `tb/ptp_td.py` PtpTdSource, PtpTdSink | reset; `pps`; conversion from and to `Decimal`; both on one clock |
| C121-C123 | `Model/PcieLink` | `tb/pcie.py` Port | order of generators due at the same time is left open; time on the wire in integers where the code has floating point; BusPort; handler of the receiver; not connected |
| C124-C126 | `Model/BuildImages` | `fpga/build_images.py` Build.run, semaphores of asyncio (Python 3.11), names of designs | what tools print but the line that ends synthesis; exceptions only while the tool runs; scanning of directories; status display |
| C127-C129 | `Model/PauseCtrl` | `mac_pause_ctrl_rx.v`, `mac_pause_ctrl_tx.v` | reset; addresses and types of frames; statistics of the transmitter; framing (`mac_ctrl_rx/tx.v`) |
| C130, C131 | `Model/TdmaCtrl` | `tx_scheduler_ctrl_tdma.v` | AXI-lite register interface: a write to the queue RAM is one input; reset |
| C132-C134 | `Model/TdmaSched` | `tdma_scheduler.v` | nothing of the module; C133, C134 are for settings that stay, `enable` high, times below 2^48 s and periods of a whole number of slots |
| C135-C139 | `Model/MacCtrlTx`, `Model/MacCtrlRx` | `mac_ctrl_tx.v`, `mac_ctrl_rx.v` | ID_ENABLE, DEST_ENABLE and USER_ENABLE are 1; the configuration inputs of mac_ctrl_rx stay; mac_ctrl_rx without USE_READY loses a transfer in the first cycle after reset, the theorems have none there |
| C140 | `Model/IrqEdge` | `common/tb/mqnic.py` (`Interrupt`, `_run_edge_interrupts`) | coroutines run to their next wait between two events; the trigger `Edge` sees each change of value |
| C141, C142 | `Model/Axil` | `lib/axi/tb/axil.py` | channels are lists (handshakes, pauses and latencies left out); addresses are exact, the code divides floats; `prot` left out; the address signal is wide enough |
| C143 | `Model/DmaSink` | `dma_client_axis_sink.v` (state machine) | AXIS_LAST_ENABLE and AXIS_KEEP_ENABLE are 1; widths are powers of two; tid, tdest and tuser are one field; abort is not used by the code |
| C144 | `Model/DmaSinkDone` | `dma_client_axis_sink.v` (FIFOs, completion) | FIFOs are lists; the transfer accepted is an input; the limit of active descriptors is left out |
| C145 | `Model/DmaSource` | `dma_client_axis_source.v` (both state machines) | segments answer in order, the RAM does not change meanwhile; output FIFO left out; widths are powers of two; tid, tdest and tuser are one field |
| C146, C147 | `Model/RegIf` | `axil_reg_if_wr.v`, `axil_reg_if_rd.v` | no reset; TIMEOUT at least 2; prot not used |
| C148 | `Model/PulseMerge` | `pulse_merge.v` | no reset |
| C149 | `Model/MacTs` | `mac_ts_insert.v` | no reset; data and keep are one field |
| C150 | `Model/TlpDemux` | `pcie_tlp_demux.v` | no reset; FIFOs behind left out; positions of segments in a cycle not modelled; the fields of a segment are one field |
| C151 | `Model/PipeFifo` | `axis_pipeline_fifo.v` | no reset; LENGTH > 0; the FIFO is a list with a limit, not pointers and RAM; the fields of a transfer are one field |
| C152 | `Model/RbDrp` | `rb_drp.v` | no reset; metastability only as old or new value; register reads are the registers; widths not modelled |
| C153 | `Model/DrpSw` | `utils/drp.c` on `rb_drp.v` | as C152; a register write is seen at one edge of the register clock, any time after the one before; the bus in between is left out |
| C154 | `Model/XcvrReg` | `utils/xcvr_gt.c:17-129` | registers hold what is written; shifts as natural numbers (a shift of 32 or more, undefined in C, gives 0); null pointers left out |
| C155 | `Model/FcCount` | `pcie_tlp_fc_count.v` | no reset; of a header only format, type and length; an undefined type counts for nothing |
| C156 | `Model/XcvrTables` | tables and `load_preset` of `utils/xcvr_gthe3.c`, `xcvr_gthe4.c`, `xcvr_gtye3.c`, `xcvr_gtye4.c` | tables transcribed by a script with the macros expanded; resets, PLL selection and equaliser mode left out; presets only, not the tables of other settings |
| C157 | `Model/Broadcast` | `axis_broadcast.v` | a beat as one value; no reset inside a run |
| C158 | `Model/AxisDemux` | `axis_demux.v` | a beat as one value with the last flag; choice by `select` or `tdest` is an input; at most one output valid by construction; no reset inside a run |
| C159 | `Model/AxisTap` | `axis_tap.v` | output stage left out, its readiness is any; a beat as one value with the last flag; no reset inside a run |
| C160 | `Model/CmacPad` | `cmac_pad.v` | `tuser` left out; no reset inside a run |
| C161 | `Model/Avst` | `axis2avst.v`, `avst2axis.v` | `KEEP_ENABLE` on, bytes of eight bits; `empty` a number; valid and ready are wires and left out |
| C162 | `Model/LedSreg` | `led_sreg_driver.v` | synchroniser and prescaler left out, their outputs are any; interleaving of two inputs left out; counter a number; board modelled as a shift register with a latch |


















| C55-C57 | `Model/PcieEnum` | `pcie.py` enumerate, configure_bar, match_bar, bridge windows and routing | capability walk, ID-routed messages, device number matching |

Further simplifications are listed at the head of each model file.

## How the theorems were tested

Realistic bugs were seeded into scratch copies of the models and everything that depends on them was rebuilt;
`seeded/LOG.jsonl` has one line per attempt (edit, claim it breaks, declarations that stopped checking, theorems tightened
afterwards).

## Disagreements between code and properties

Confirmed by a machine-checked counterexample theorem (name in brackets):

* `mqnic_rx.c`: a short frame leaves `rx_info->page` set and wedges the ring (C09_short_frame_wedges).
* `mqnic_ptp.c:mqnic_read_cpl_ts`: OR of stale and fresh seconds bits (C41_rollover_counterexample, C41_stale_counterexample).
* `mqnic_tx.c`: the doorbell is lost if the last frame of a burst is dropped (C45_dropped_burst_counterexample).
* `mqnic_cq.c:mqnic_cq_read_prod_ptr` reads the consumer half (C03_linux_cq_counterexample).
* `mqnic.py` Resource: double free hands out one number twice (C01_double_free_counterexample).
* `cpl_queue_manager.v`: an arm command overwrites a pending event (C15_event_overwritten_counterexample); base address
  byte strobes use bits [2:0] instead of [3:1] (C14_base_strobe_counterexample).
* `tx_scheduler_rr.v`: lost wake-ups with the scheduler control port and with overtaken requests
  (C18_sched_ctrl_counterexample, C18_overtaken_counterexample), double scheduling by partial register writes
  (C16_strobe_counterexample).
* `mqnic.py` `process_eq` re-arms completion queues before it acknowledges events: the event queue can overflow, the dropped event
  silences its completion queue for ever (C58_overflow_stalls; C59_overflow_stalls for polling on another CPU).
- `pcie_us.py`: a request in 64-bit format below 4 GB comes back in 32-bit format (C60_format_not_kept); atomics and locked reads can be
  unpacked but not packed (C60_atomics_one_way); a frame without data is dropped (C63_empty_dropped); `USPcieFrame.__eq__` (:95-106) tests
  `isinstance(other, TLP_us)`, so two frames never compare equal (not modelled).
* `udp_ep.py`: computed checksum 0 is not replaced by 0xFFFF (C22).
* `baser.py`: signal ordered sets decoded as sequence ordered sets, 68-bit block for ordered set plus controls
  (C25_python_sig_os_counterexample, C25_python_os0_counterexample); `xgmii_baser_dec_64.v:239` flags data bytes as control
  (C25_os_start_flags).
* `rx_hash.v`: beat counter wraps in IPv6 frames (C29_ipv6_wrap_counterexample).
* `rx_checksum.v`: accumulator survives reset (C30_reset_counterexample).
* `axis_cobs_decode.v` loses the frame end for a full block followed by code 1 (C34, foreign encoders only).
* `timespec.c`: unnormalised comparisons, end of range of `timespec_mod` (C42).
* `pcie.py`: `Function.mem_read` passes the whole length to `set_be` (C50_device_read_counterexample); header packing of read
  and write requests (C51_read_request_counterexample, C51_write_request_counterexample); `alloc_region` is off by one for odd
  sizes (C53_odd_counterexample); capability placement overlaps by one register, a single capability has no next pointer
  (C54_overlap_counterexample, C54_single_counterexample); a 64-bit BAR of 4 GB or more is never decoded
  (C56_big_counterexample); a 32-bit BAR ignores the upper address bits (C56_alias_counterexample).

Noticed while reading, not part of a theorem:

* `mqnic.py:Interface.close` awaits non-coroutines and does not await `q.disable()`; edge interrupts never update `last_val`,
  and the coroutine `_run_edge` is created but not awaited.
* `ptp_td.py`: `get_period_ns` misses a division by 2^32 when drift is set; a sink started in mid message may raise; a `td_delay`
  above 256 drops every message; `set_ts_tod_64` and `get_ts_tod_96` use different shifts.
* `tb/ptp.py`: nanoseconds may reach 10^9 (`>` instead of `>=`); drift is applied on rate-1 of every rate clocks.
* `axis_eth_fcs_check.v`: frames of at most 4 bytes merge with the next frame.
* `axis_fifo.v`: MARK_WHEN_FULL starves on back-to-back one-word frames; a pause withdraws `tvalid` before the handshake; the bad
  frame test with a multi-bit mask matches if any masked bit is equal; gaps inside frames with RAM_PIPELINE = 1.
* `axi.py`: `read_resp` tests `m_axi_buser` for `ruser`; `int(a/b)` is inexact from 2^53.
* `dma_psdp_ram.py`: write reset keeps `cmd_valid`; `init_read`/`init_write` call methods that do not exist.
* `mqnic_rx_queue_map.v`: `offset_reg` is never read, `wstrb` is ignored.
* `mqnic_res.c:mqnic_create_res` checks `res` instead of `res->bmap`.
* `queue_manager.v`: OP_TABLE_SIZE must be a power of two; continuous register writes can starve commits.
* `tx_scheduler_rr.v`: a full doorbell FIFO drops doorbells.
* `pcie.py`: `check` tests `0 > length > 1024`, which is never true; the TLP copy constructor omits `th`; ID-routed messages are
  routed by the requester's bus; `Bridge.write_config_register` tests register 5 with `if` instead of `elif`; `bridge_control` is
  computed from `min_gnt`; an empty memory window at the top of the 32-bit space or at 0 opens the whole space.
* `tx_engine.v`: the space check behind `s_axis_desc_tready` does not see the packet taken in the same cycle, so a packet which follows
  back to back may overwrite packets not yet sent (`C65_tx_back_to_back`); if the size limit is not a multiple of the step size (9214 and
  128 by default) a packet may run past the end of the buffer (`C65_tx_rounding`); a descriptor longer than the limit is read in full and
  overwrites other packets (`C65_tx_long`); `desc_table_csum_start` keeps 7 of the 8 bits of the descriptor
  field (`C66_checksum_start`); in
  `buf_ptr & MASK + OFFSET` the sum binds first.
* `rx_engine.v`: a buffer is freed with the size configured at that time, so raising the size in operation makes buffers overlap
  (`C65_rx_mtu`); a packet scattered over several descriptors is completed, and its buffer freed, when the first DMA write
  finishes (`C67_multi_write`); the report of a later write is taken for the next packet with the tag (`C67_stale_report`); a descriptor
  that arrives after the first report is lost and leaks one of `MAX_DESC_REQ` (`C67_late_descriptor`); a packet with nothing to
  write stops the engine (`C67_empty_stalls`); a packet cut off by short descriptors is reported with its full length
  (`C67_truncated`); a packet dropped before its checksum has come leaves the checksum to the next packet (`C67_checksum_shift`). The
  driver uses one descriptor per packet on receive queues, which avoids the first three.
- C68: with two or more ports, `desc_fetch` offers a commit as soon as the port of the new commit is free, and replaces the whole valid
  vector and the shared operation tag; a commit another port has not taken yet is lost (`C68_lost_commit`). `queue_manager` takes commits at
  once when enabled, so the parts of this repository together do not show it. The read length is declared `[7:0]`: a block of 256 bytes or
  more is fetched and sent truncated (`C68_long_block`).
- C69: `stats_collect` keeps the unreported sum of a counter in STAT_INC_WIDTH bits; with a slow receiver it runs over and increments are lost
  (`C69_overflow`). The period counter is `$clog2(UPDATE_PERIOD-1)` bits wide, one too few when UPDATE_PERIOD-1 is a power of two; the only effect is
  that updates come more often.
- C70: in `stats_counter` reads go before increments, and a read in the pipeline blocks increments of its counter: polling one counter without pause
  keeps its increments out forever, and everything behind them on the stream (`C70_starvation`). Counters wider than the bus are read word by word
  without any snapshot, so a value the counter never held can be read (`C70_torn`). A read sees increments only after PIPELINE cycles.
- C71: `tx_checksum` keeps a whole frame in its data FIFO (MAX_TX_SIZE bytes in `mqnic_egress`) until the checksum is known; a longer frame fills it
  and nothing moves again before reset (`C71_stuck`). With USE_INIT_VALUE and an odd start the initial value goes in with its bytes exchanged
  (`C71_init_odd_counterexample`); `mqnic_egress` does not use it.
- C72: in `dma_if_pcie_rd` (also `dma_if_pcie_us_rd`, `pcie_us_axi_dma_rd`) with a maximum read request size of 4096, an operation of 4096 bytes or more whose
  end is at a page end is followed by a request with length field 0, that is 1024 dwords of the page after it (`C72_page_end`). With a length and dword offset that
  overflow LEN_WIDTH the maximum request size is ignored (`C72_wrap`). The data credits of a short request that crosses a completion boundary are
  counted without its alignment and can be one short (`C72_credits_counterexample`).
- C74: in `dma_if_pcie_rd` the counters of requests made and finished have PCIE_TAG_WIDTH+1 bits, but up to 32 finished requests wait in the status FIFO
  besides those outstanding; with 16 tags or fewer an operation of 33 requests can be reported before its data has arrived (`C74_early_counterexample`).
  A poisoned completion releases the tag one cycle later; another completion of the same request in that cycle releases it again, and two requests
  then use the same tag (`C74_poison_counterexample`).
- C75: in `dma_if_pcie_wr` the length registers of an entry have 12 bits and the dword count 10: with a maximum payload of 4096 bytes (setting 5) a TLP of
  4096 bytes has length 0, its first beat no strobe, and its reads go wrong (`C75_payload_4096_loses_data`).
- C77: `dma_if_pcie_wr` looks at a registered comparison when it begins a TLP and counts it when its first beat is sent, so that with TLPs of one beat the
  limit is exceeded by one (`C77_write_exceeds_limit`); the counter has just enough bits for TX_LIMIT and saturates, so that for TX_LIMIT = 2^k - 1 it
  loses TLPs and drifts (`C77_write_limit_lost`). `dma_if_pcie_rd` counts in the cycle in which it sends and keeps the limit.
- C78, C79: `irq_rate_limit` forms the difference of deadline and time with 32 bits, so a deadline behind the wrap of the 17-bit time counter counts as
  over at once (`C79_wrap_breaks_interval`). While requests come without pause the timers are not scanned (`C78_needs_pause`).
- C81, C82: `pcie_msix` writes pending bits at `irq_index_reg >> 5` and reads them at `>> 6`: with 64 vectors masked requests of vectors 32-63 are lost
  (`C82_masked_high_lost`), with 128 the wrong vector is sent (`C82_wrong_vector`). A pending vector that stays masked is tried for ever and blocks all
  others (`C81_masked_blocks`).
- C89: `PcieIfSource` never drives `tlp_abort`: the flag of a frame is lost on the way (`C89_abort_lost`).
- C91: link capabilities shift the link width and what follows to the right: they read as 0 (`C91_link_width_lost`). Link control reads the read completion boundary at bit 3 and writes it from bit 4 (`C91_rcb_misplaced`). The secondary status of a bridge cannot be cleared (`C91_sec_status_stuck`); two read-only bits of the device status can (`C91_status_cleared`). Writing register 15 of a bridge raises an exception (it uses `self.min_gnt`), and so does link control 2 while an equalization request is pending (`C91_write_raises`). The first register of the last capability has no next pointer if none was set, and the last registers of a short MSI capability have no value (`C91_readable`). Extended capabilities are placed from double word 0x40 on but all registers up to 255 are looked up in the ordinary list; they are outside the model.
- C92: message data has 16 bits: with more than 2048 devices interrupts go to the handlers of other devices (`C92_wraps`). A handler registered for a message from 32 on is called for the next device (`C92_beyond`). The mask bits are ignored (`C92_mask_ignored`). Registering before configuring is silently dropped (in `handlers` of the specification).
- C93: the XGMII sink does not look for the end of a frame in its first word, so that frames shorter than a word are received with end and idle characters (`C93_short_frame`). It stops at the first error character and drops the rest of the frame (`Frame.expect`). The constructor `XGMIIFrame(data, error, ctrl)` ignores its last two arguments; errors have to be assigned afterwards.
- C95: a GMII frame of one byte is not followed by a gap and merges with the next frame (`C95_one_byte_merges`). In MII mode a 0xD5 across a byte boundary before the start delimiter shifts all that follows by a nibble (`C95_unsynced_shifted`).
- C96: an error flag on a byte makes the source encode an error block, so the bytes of that block before the error are lost too (`C96_error_wipes_block`); over XGMII they arrive.
- C97: the driver takes any size, block size and buffer address; the hardware keeps 4 bits of the logarithm of the size, 3 bits of the block size and addresses at pages, so larger or unaligned rings are silently something else in the hardware (`C97_limits`).
- C98: closing an EQ before its CQs and opening it again makes `Cq.close` raise, and the CQ number is lost (`C98_eq_first`); opening a second ring on a CQ takes the completions of the first (`C98_second_ring`).
- C99: `Interface.close` calls `q.disable()` without `await` and awaits the result of `free_buf`, which is `None`; it raises at the first queue, the hardware stays enabled with its buffers freed, and a later `open` fails (`C99_close_raises`, `C99_no_reopen`).
- C100: after a timeout the tag is released although the completion may still come; the next request with that tag takes it as its own (`C100_late_completion`).
- C102: `axis_async_fifo.tcl` bounds the delay of the commit pointer by a period of the write clock, but nothing makes the read side wait that long: with a read clock more than twice as fast the update flag can be through its synchronizer before the pointer has arrived, and the read side delivers words that were never written (`C102_commit_skew_counterexample`). C102 assumes it arrives in time.
- C103: `SwitchUpstreamPort.route_downstream_tlp` compares the bus range of a port with the requester of an ID routed message instead of its destination (pcie.py:2828): no message of the root complex passes a root port (`C103_message_counterexample`). (`Device.upstream_recv` could not handle it either.)
- C103: a completion that no port of a switch takes is itself answered with an unsupported request completion for the same requester (pcie.py:2865-2876); the port above sends that back down, and so on forever (`C103_stray_counterexample`).
- C105: `Bridge.upstream_recv` discards requests outside its windows without an answer (pcie.py:2664-2677), which happens when the bridge of a switch has a BAR (`C105_switch_counterexample`); `route_downstream_tlp` answers posted writes (`C105_posted_counterexample`), and the window of the host bridge includes the first address after the memory range (`enumerate` sets the limit, not the limit minus one, pcie.py:4497-4502).
- C106: `axis_adapter` with `S_KEEP_ENABLE = 0` says "tkeep assumed to be 1'b1" but uses `s_axis_tkeep` (axis_adapter.v:39-40, :178-181); with `tkeep` wired to 0 all bytes are dropped (`C106_keep_counterexample`).
- C110: the error rate monitor stops counting at 15, so an interval with 15 bad headers does not lower the flag although 16 are needed to raise it (`C110_fifteen_counterexample`). `COUNT_WIDTH = $clog2(COUNT_125US)` is one bit short for powers of two: the timer is then 0 and the flag never raised (eth_phy_10g_rx_ber_mon.v:62, `C110_power_counterexample`). The same width is used in the watchdog.
- C111: the watchdog acts on counters of the previous interval, so the transceiver is reset at the end of an interval that was fine (`C111_recovered_counterexample`), and the status goes up in a cycle without lock (`C111_glitch_counterexample`); block errors alone never take the status down (`C111_errors_counterexample`).
- C112: the simulated clock adds the drift in `drift_rate - 1` of `drift_rate` cycles, the hardware in one (tb/ptp.py:81-83, :122-125), and rolls over only above 10^9 ns, so that 10^9 can be read as nanoseconds (tb/ptp.py:85-87).
- C113: `ts_inc_ns_ovf_reg` is 0 at power up, which without a reset ends the first second after two cycles (ptp_clock.v:113-118); a loaded 64 bit time is not shifted to the width of the fraction (ptp_clock.v:288-291).
- C114: an adjustment given while one is pending loses its count (the later assignment to `adj_count_reg` wins, ptp_clock.v:226-247); a net negative increment wraps in the increment register: 8 ns back moves 56 ns ahead (ptp_clock.v:235-238).
- C115: `locked` is set in the first quiet cycle after a rising edge and is needed at the edge to put the pulse out, so the first pulse at `start` is always missing (ptp_perout.v:214, :222); `enable` is looked at only at the rising edge.
- C116: `si5341_cmds` keeps its own idea of the page and does not look for writes to the page register, address 1 of each page, in the list (pll/si5341_i2c_init.py:36-45).
- C117: the documentation lists delay as a general command, the state that repeats a data block takes it for an invalid one and skips it (pll/si5341_i2c_init.py:200-203, :457-523).
- C118: the source delays the time it reports by 14 * 17 + td_delay edges to agree with the sink (tb/ptp_td.py:227), but the sink has it one edge later: what both report differs by one period (C118_get). A sink released from reset while a message is on the line collects fewer than 14 words and ends with an IndexError (tb/ptp_td.py:504-585). With `td_delay` above 256 every message is replaced before it takes effect (tb/ptp_td.py:600-604).
- C122: `Port.send` sets `tx_scheduled` only after the `yield` that forks `transmit` (pcie.py:764-767). Two calls at the same time both find it false and start a transmitter each: the packets are on the wire at once, a short one overtakes a long one sent before (C122_overtake_counterexample), such as a read request a posted write. With the values of `max_speed` above 3 and 16 lanes `int(d)` is 0 for packets without data (C123_no_time_counterexample); order then rests on the simulator alone.
- C123: `p.connect(p)` raises "Already connected" after it has connected the port with itself (C123_self_counterexample).
- C125: `Build.run` releases its semaphores only on the normal path (build_images.py:147-153). An exception in `process_stream` - output that is not UTF-8, a line longer than the 64 KiB limit of `readline` - ends the task with both permits still taken, while the tool goes on; after as many as the limit, the remaining jobs wait for ever (C125_exception_counterexample). With `--parallel 0` nothing is ever built.
- C126: `fpga_25g/fpga` and `25g/fpga` below the same board get the same name, as do `a-b` and `a/b`; the later build overwrites the file of the earlier one (C126_same_name_counterexample).
- C128: in mac_pause_ctrl_tx.v a launch overwrites `lfc_act_next` and `lfc_send_next` (lines 227-230) that a change of the request in the same cycle has just set (lines 219-221). A request withdrawn for one cycle leaves `lfc_act` clear although the partner pauses, and the end of that pause is not sent (C128_end_counterexample). With `tx_lfc_resend` while idle, a request in the next cycle is not sent (C128_resend_counterexample). Two priorities that ask one cycle after the other: the second is left out of the frame and sent only after a further refresh interval (C128_priority_counterexample, lines 240-254).
- C131: tx_scheduler_ctrl_tdma.v keeps one beginning and one end of a slot (lines 392-400). A slot that begins while the queues of the slot before are still being switched on is dropped, but its end is kept; the queues of that slot stay off, and the next slot is ended as soon as it has been switched on (C131_lost_counterexample).
- C134: tdma_scheduler.v puts out nothing in the first period after a start that lies ahead: `locked_int` is set only once the schedule runs (lines 261-270, 285), so the first slot is that at start + period (C134_future).
- C136: mac_ctrl_tx.v ignores `tx_pause_req` after a frame of a single transfer (lines 197-204: `s_axis_tready_next` does not depend on it); with 512 bits such frames are those of up to 64 bytes, and as long as they come without gaps the pause is never acknowledged (C136_single_counterexample)
- C138: mac_ctrl_rx.v looks at `s_axis_tkeep[13%BYTE_LANES]` in the transfer with byte 15 (line 286), so with 8 lanes a frame of 14 bytes is taken as a control frame, its opcode read from lanes that are not valid (C138_short_counterexample)
- C140: `last_val` is never assigned in `_run_edge_interrupts` (mqnic.py:1761-1769), so while a line is high each change of another line runs its handler again (C140_repeated_counterexample); `_run_edge` calls `self.interrupt()` without awaiting it (mqnic.py:1608-1611), so an interrupt made by `from_edge` never runs (C140_from_edge_counterexample)
- C142: `init_read(addr, 0)` with an aligned address puts a read on the bus (axil.py:297) but takes no answer (cycles is 0), so all reads after it return the data of the read before (C142_empty_counterexample)
- C143: PART_OFFSET_WIDTH is 1 for a stream of one lane (dma_client_axis_sink.v:129), so the part of a byte is taken from the wrong address bits (C143_one_lane_counterexample); a descriptor of length 0 starts with a cycle count of all ones, and the frame is stored without limit (C143_zero_length_counterexample)
- C145: as C143: PART_OFFSET_WIDTH is 1 for a stream of one lane (dma_client_axis_source.v:131), so another byte is read (C145_one_lane_counterexample); a descriptor of length 0 puts out the longest frame the counter can hold instead of none (C145_zero_length_counterexample).
- C146, C147: an access that times out is answered OKAY (axil_reg_if_wr.v:90, axil_reg_if_rd.v:84), a read then with whatever is on the register data; software cannot tell it from an access that was made. The theorems say when this can happen (`acked = false` needs `age = TIMEOUT - 1`).
- C148: the counter does not saturate: a backlog of 2^COUNT_WIDTH pulses is lost as a whole (C148_overflow_counterexample). mqnic_core_pcie.v:1331-1356 merges three error pulses with 4 bits, so a backlog of 16 is needed.
- C152: the control register of `rb_drp.v` accepts a write while an access is going on; the enable bit it sets is cleared when that access ends (lines 208-213), so the second access is lost although the write was acknowledged (`C152_busy_write_counterexample`). The busy bit alone is no guard: it still reads 0 in the cycle after the control write.
- C153: `drp_rb_reg_read` and `drp_rb_reg_write` (utils/drp.c:9-29) look at the control register once and give up if the access is still going on. The next call then writes the registers during that access: its own access is lost (C152), and it can report success with the answer to the access before (`C153_after_failure_counterexample`). They would have to wait for the enable bit before they start.
- C155: `pcie_tlp_fc_count.v` looks at nine of the ten bits of the length, so data credits are wrong for more than 512 words (2048 bytes) of data: 1024 words count as 512, 516 as 4 (`C155_long_counterexample`). Payloads of up to 2048 bytes are counted right.
- C156: the `load_preset` functions do not look at the outcome of writing the tables: if an access fails the rest of the table is skipped and 0 is returned (`C156_failure_counterexample`).
- C159: in `axis_tap.v` a frame of one beat that comes while the output is not ready leaves the tap waiting for the end of a frame, so the next frame is skipped too though the output is ready (`C159_skip_counterexample`).
