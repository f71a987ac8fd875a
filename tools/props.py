import json
P=[]
def p(id,title,statement,quantifier,why,anchors):
    P.append(dict(id=id,title=title,statement=statement,quantifier=quantifier,why_tests_cant=why,anchors=anchors))

MQ="fpga/common/tb/mqnic.py"
p("C01","Queue-index allocator never double-allocates",
"Starting from a freshly created hardware-resource allocator with `count` indices, after any sequence of alloc() and free() calls in which only held indices are freed, no index is held twice, every held index is < count, alloc() returns the smallest index that is not held, and alloc() fails exactly when all `count` indices are held. The kernel driver's bitmap allocator keeps the same promise, and there a free of an index that is out of range or not held has no effect.",
"every count, every finite sequence of alloc/free calls",
"the set of alloc/free histories is infinite; a test exercises a few open/close orders",
[MQ+":Resource.alloc/free","modules/mqnic/mqnic_res.c:mqnic_res_alloc/mqnic_res_free"])
p("C02","Register block discovery terminates and is exact",
"Walking the register-block linked list of a device terminates for every possible register content. If the chain reaches the null pointer without revisiting an offset, the walk returns exactly the blocks of the chain in order; if the chain revisits an offset, or leaves word alignment, the walk reports an error instead of running forever. find(type, version, index) returns the index-th block in list order with that type and (if given) version, and nothing if there are not that many.",
"every content of the register file, every type/version/index",
"device register contents are arbitrary (including cyclic lists); tests only see the one list of the simulated device",
[MQ+":RegBlockList.enumerate_reg_blocks/find","modules/mqnic/mqnic_reg_block.c"])
p("C03","16-bit hardware pointers are unwrapped to the true position",
"When software holds an old value p of a ring position and the hardware counter has since advanced by d < 65536 steps, reading the truncated 16-bit hardware pointer register makes the software's position exactly p+d, for both the producer-pointer and consumer-pointer readers; if the counter has advanced by 65536 or more the software position differs from the true one by a multiple of 65536.",
"every old position (unbounded), every advance",
"wrap-around happens once per 65536 operations and at arbitrary alignments of the unbounded position",
[MQ+":Eq.read_prod_ptr, Cq.read_prod_ptr, Txq.read_cons_ptr, Rxq.read_cons_ptr","modules/mqnic/mqnic_tx.c:mqnic_tx_read_cons_ptr"])
p("C04","TX ring never overwrites a packet in flight",
"For any interleaving of transmit calls, hardware completions delivered in any order, and completion processing, a transmit call never places a packet in a slot that still holds an uncompleted packet (the driver's internal check never fires), at most half the ring is outstanding, and the ring's consumer position never passes an uncompleted packet.",
"every ring size, every interleaving of start_xmit / completion write / process_tx_cq",
"out-of-order completion combined with pointer wrap-around gives unboundedly many interleavings",
[MQ+":Interface.start_xmit, Txq.process_tx_cq, Txq.free_desc, Txq.is_ring_full","modules/mqnic/mqnic_tx.c:mqnic_start_xmit, mqnic_process_tx_cq"])
p("C05","TX descriptor blocks describe exactly the packet bytes",
"For every packet and every descriptor block size, the list of (length, address) segments written for a transmit covers bytes 0..len of the packet buffer contiguously, in order, without gap or overlap, the segment lengths sum to the packet length, and unused segments have length 0.",
"every packet length, every number of segments per descriptor block",
"the segmentation has boundary cases at 42 bytes, 4096 bytes and at the last segment, for every block size",
[MQ+":Interface.start_xmit"])
p("C06","RX descriptor blocks describe exactly the receive buffer",
"For every ring slot and block size, the receive descriptor segments written by prepare_desc tile the receive buffer exactly from offset 0 to its length, and the address of every non-empty segment is the buffer address plus the sum of the preceding segment lengths.",
"every buffer length, every number of segments per block",
"same boundary structure as TX over an unbounded range of sizes",
[MQ+":Rxq.prepare_desc"])
p("C07","Completions are consumed exactly once and in order",
"If the hardware writes completion records into a completion ring of size 2^k with the phase bit given by its producer position, and never runs more than the ring size ahead of the consumer position, then every pass of the completion processing loop consumes exactly the records produced since the last pass, in production order, each exactly once, and stops at the first record not yet produced; stale records of the previous lap are never taken for new ones.",
"every ring size 2^k, every production/consumption history of any length",
"stale-record confusion appears only after wrap-around with particular fill levels",
[MQ+":Txq.process_tx_cq, Rxq.process_rx_cq, Eq.process_eq","modules/mqnic/mqnic_eq.c","modules/mqnic/mqnic_cq.c"])
p("C08","RX ring always owns a buffer per posted slot",
"For any interleaving of buffer refill and receive completions in any slot order, the RX ring never posts more than `size` descriptors, every slot between consumer and producer position either holds a buffer or has been completed, refill never overwrites a slot still holding a buffer, and every received packet handed to the stack is the content of the buffer of the completed slot truncated to the completion length.",
"every ring size, every interleaving",
"needs arbitrary completion order plus wrap-around",
[MQ+":Rxq.refill_buffers, Rxq.process_rx_cq, Rxq.free_desc"])
p("C09","A short received frame does not disable the RX ring (kernel driver)",
"After the kernel driver has processed a completion for a frame shorter than an Ethernet header, the receive slot is recycled like any other slot, so the ring keeps being refilled and reception continues.",
"every ring state, every completion sequence containing a short frame",
"test benches never deliver frames below 14 bytes to the driver",
["modules/mqnic/mqnic_rx.c:mqnic_process_rx_cq, mqnic_refill_rx_buffers"])
QM="fpga/common/rtl/queue_manager.v"
p("C10","Descriptor dequeue hands out each descriptor once, in order, never past the producer",
"For any number of queues, any pipeline depth and any schedule of register accesses, dequeue requests and commits, the k-th successful dequeue response of a queue (since it was configured) carries pointer cons+k (mod 2^16), it is only given when the producer pointer written by the host is not yet reached, and a request on a queue whose descriptors are all handed out is answered `empty`; a request on a disabled queue is answered with an error and changes nothing.",
"every parameterisation, every cycle-level input schedule",
"the module is pipelined with hazard logic and an operation table; the number of schedules is unbounded",
[QM])
p("C11","Descriptor commits retire in order",
"The consumer pointer visible to the host advances only when all earlier dequeue operations have been committed, in the order the operations were started, regardless of the order in which commits arrive, and every committed operation whose predecessors are committed is eventually the next to retire; the table slot of an operation is not reused before it is retired.",
"every order of commits, every number of outstanding operations",
"commit order permutations grow factorially and interact with table wrap-around",
[QM+":op_table_*","fpga/common/rtl/cpl_queue_manager.v:op_table_*"])
p("C12","Ring addresses returned to the DMA engine stay inside the ring",
"The address in a dequeue/enqueue response is base + (pointer mod ring size) * element size, i.e. an element-aligned address inside [base, base + ring bytes), and two different pointers less than a ring size apart give disjoint element ranges; the phase bit is the inverse of the lap parity of the pointer.",
"every base address, ring size, block size, pointer",
"needs all pointers and sizes, including 16-bit wrap",
[QM+":m_axis_dequeue_resp_addr_next","fpga/common/rtl/cpl_queue_manager.v:m_axis_enqueue_resp_addr_next"])
p("C13","Configuration of an active queue cannot be changed",
"While a queue is enabled, writes to its base address, size, completion-queue number and consumer pointer have no effect on it; only the producer pointer and enable state can change, a producer pointer write rings the doorbell for that queue exactly when it is enabled, and a register write to one queue never changes another queue.",
"every register write sequence",
"all addresses x data x states",
[QM,"fpga/common/rtl/cpl_queue_manager.v"])
CQM="fpga/common/rtl/cpl_queue_manager.v"
p("C14","Completion queues never overwrite an unread entry",
"An enqueue request on a completion/event queue is granted only if the number of entries between the host's consumer pointer and the granted pointer is less than the ring size; otherwise it is answered `full`. Granted pointers of a queue are consecutive.",
"every ring size, pointer values, schedules",
"overflow needs precise pointer/wrap/arrangement of in-flight operations",
[CQM])
p("C15","No lost wake-up on armed completion queues",
"Whenever an armed queue has an entry committed, exactly one event for that queue is produced and (in one-shot mode) the queue is disarmed; arming a queue (alone or with a consumer pointer update) that already has unread entries produces an event at once; therefore a one-shot queue is never left armed with unread entries and no event delivered. No event produced is overwritten before it is accepted downstream.",
"every interleaving of arm writes, pointer updates and commits",
"the race between arming and committing is schedule dependent",
[CQM])
SCH="fpga/common/rtl/tx_scheduler_rr.v"
p("C16","A queue is scheduled at most once",
"In every reachable state of the round-robin transmit scheduler each queue appears in the scheduling FIFO at most once, exactly when its `scheduled` flag is set and no request for it is in the pipeline, so the FIFO of depth 2^QUEUE_INDEX_WIDTH can never overflow; the active queue count equals the number of scheduled queues.",
"every sequence of doorbells, completions, register writes, control commands",
"state space is exponential in the number of queues",
[SCH])
p("C17","Round-robin service is fair",
"While a queue stays enabled and active, between two consecutive transmit requests issued for it every other queue is issued at most one transmit request; a scheduled queue is served before any queue that is (re)scheduled after it.",
"every number of queues and every history",
"fairness is a property of unbounded histories",
[SCH+":rr_fifo"])
p("C18","No lost doorbell in the transmit scheduler",
"If a doorbell for an enabled queue arrives after the last transmit request that was issued for that queue, then when all outstanding operations have completed the queue is active and scheduled, so its new descriptors will be requested without a further doorbell.",
"every interleaving of doorbells, requests and out-of-order completions",
"loss requires a doorbell racing with out-of-order completions of several in-flight operations",
[SCH+":op_table_doorbell, op_complete_pipe"])
E="fpga/lib/eth/tb/"
p("C19","Ethernet frame serialisation round-trips",
"Parsing the byte stream built from an Ethernet frame returns the same destination, source, type and payload; with FCS the appended 4 bytes are the CRC-32 of the preceding bytes and parsing recovers them; streams shorter than a header are the only ones for which parsing fails.",
"every 48-bit address pair, 16-bit type, payload of any length",
"infinite payload space",
[E+"eth_ep.py:EthFrame"])
p("C20","ARP frame serialisation round-trips",
"Building the 28-byte ARP payload and parsing it returns every field unchanged for all in-range field values.",
"every value of every field",
"product of 2^8..2^48 field domains",
[E+"arp_ep.py:ARPFrame"])
p("C21","IPv4 header serialisation round-trips and its checksum verifies",
"Building an IPv4 frame and parsing it returns every header field and the payload; after the header checksum is updated, verification succeeds, and the ones' complement sum of the header words is 0xFFFF.",
"every header field value in range, every payload",
"checksum carries interact over the whole field space",
[E+"ip_ep.py:IPFrame"])
p("C22","UDP serialisation round-trips and its checksum verifies",
"Building a UDP datagram and parsing it returns all fields and the payload; after the UDP checksum is updated, verification succeeds for every payload of even or odd length.",
"every field value, every payload up to 65527 bytes",
"carry folding over unbounded payloads",
[E+"udp_ep.py:UDPFrame"])
p("C23","Internet checksum detects any single corrupted word",
"If verification succeeds for a header, it fails for every header obtained by changing exactly one 16-bit word to a value that is not congruent to it modulo 0xFFFF.",
"every header, every position, every replacement value",
"2^16 x positions x contents",
[E+"ip_ep.py:IPFrame.verify_checksum",E+"udp_ep.py:UDPFrame.verify_checksum"])
p("C24","AXI stream frames survive bus packing",
"Packing a frame of words onto a bus with M lanes of any width and unpacking the resulting beats returns the same words; the number of beats is ceil(n/M), tlast marks only the final beat, and tkeep marks exactly the used lanes.",
"every frame length, lane count and lane width",
"unbounded frames and parameters",
[E+"axis_ep.py:AXIStreamFrame.build/parse"])
p("C25","64b/66b encode and decode are inverse",
"For every 64-bit XGMII word pair that the encoder accepts, decoding the encoded block returns the same data and control characters, except where the code itself does otherwise (recorded disagreement).",
"every XGMII lane combination",
"2^72 inputs",
[E+"baser.py:BaseRSerdesSource/BaseRSerdesSink","fpga/lib/eth/rtl/xgmii_baser_enc_64.v","fpga/lib/eth/rtl/xgmii_baser_dec_64.v"])
p("C26","The descrambler synchronises to the scrambler",
"Whatever the initial states of the scrambler and descrambler, after the first 58 bits the descrambled bit stream equals the input bit stream, for every input; with equal initial states all bits agree. A single flipped line bit corrupts at most three output bits.",
"every initial state pair, every input stream of any length",
"2^116 state pairs, infinite streams",
[E+"baser.py:scrambler","fpga/lib/eth/rtl/eth_phy_10g_tx_if.v","fpga/lib/eth/rtl/lfsr.v"])
p("C27","CRC-32 appended as FCS yields the constant residue",
"For every message, the bitwise reflected CRC-32 computed over message plus its little-endian CRC leaves the constant residue 0xDEBB20E3, so a receiver accepts every frame built by the sender; any single-bit error changes the residue.",
"every message",
"infinite messages",
[E+"eth_ep.py:EthFrame.build_axis_fcs","fpga/lib/eth/rtl/lfsr.v"])
p("C28","Parallel LFSR equals bit-serial LFSR",
"The parallel next-state/output computation by generated masks for any data width equals stepping the serial LFSR once per data bit, for Galois and Fibonacci styles, feed-forward or not, reversed or not.",
"every LFSR width, polynomial, data width, state, data",
"parameters and inputs unbounded",
["fpga/lib/eth/rtl/lfsr.v:lfsr_mask"])
p("C29","RSS hash is the Toeplitz hash of the flow tuple",
"For any key, bus width and segmentation into beats, the hash output for an IPv4 TCP/UDP (no options) frame is the Toeplitz hash of source address, destination address, source port, destination port; for other IPv4 frames that of the two addresses; other frames hash to zero. Hence packets of the same flow get the same hash and are mapped to the same queue.",
"every frame, key, bus width",
"2^320 keys x frames x alignments",
["fpga/common/rtl/rx_hash.v"])
p("C30","RX checksum is the ones' complement sum of the payload",
"For every bus width and every frame the checksum output equals the ones' complement sum of the big-endian 16-bit words of the frame starting at byte 14 (odd trailing byte padded with zero).",
"every frame length/content, bus width",
"carry handling over unbounded frames",
["fpga/common/rtl/rx_checksum.v"])
A="fpga/lib/eth/lib/axis/rtl/"
p("C31","AXI stream FIFO preserves order without loss or duplication",
"Under any handshake schedule the words read from the FIFO are exactly the words accepted, in order; it never accepts a word when full and never presents a word when empty. In frame mode only complete frames are delivered; a frame that is dropped (oversize, bad or full) leaves no trace.",
"every depth, schedule and word sequence",
"unbounded schedules",
[A+"axis_fifo.v"])
p("C32","Arbiter grants at most one requester and starves nobody",
"At every clock the grant vector is one-hot or zero and agrees with the encoded grant; only a port requesting at that time is newly granted; with round-robin arbitration a continuously requesting port is granted within PORTS grants.",
"every port count, every request/acknowledge history",
"exponential in ports, unbounded in time",
[A+"arbiter.v",A+"priority_encoder.v"])
p("C33","Priority encoder is exact for every width",
"The tree-structured priority encoder reports valid iff any input bit is set and returns the index of the lowest (LSB priority) or highest set bit.",
"every width, every input",
"2^width inputs for unbounded width",
[A+"priority_encoder.v"])
p("C34","COBS encoding is zero-free and decodes to the original",
"For every non-empty byte frame, the encoder output contains no zero byte other than an optional final delimiter, and the decoder returns exactly the original frame; output overhead is at most one byte per 254 plus one.",
"every frame of any length",
"infinite inputs, 254-byte block boundaries",
[A+"axis_cobs_encode.v",A+"axis_cobs_decode.v"])
p("C35","Register slices are transparent",
"The skid-buffer register (and the identical output stage of many modules) delivers exactly the accepted beats in order under any valid/ready schedule, holds valid and data stable until accepted, and never accepts a beat it cannot store.",
"every schedule",
"unbounded schedules",
[A+"axis_register.v",A+"axis_cobs_encode.v:output datapath"])
p("C36","AXI master writes modify exactly the addressed bytes",
"A write of any data at any address through the AXI master bus model into the AXI RAM model changes exactly the bytes [addr, addr+len) to the data and no others; every burst is at most 256 beats and does not cross a 4 KiB boundary.",
"every address, length, bus width (power of two), burst size",
"alignment x length x boundary combinations are unbounded",
["fpga/lib/axi/tb/axi.py:AXIMaster.init_write/write_logic, AXIRam"])
p("C37","AXI master reads return memory content",
"A read of any length at any address through the AXI master from the AXI RAM returns exactly the bytes stored at [addr, addr+len); every burst obeys the 256-beat and 4 KiB rules.",
"every address, length, bus width",
"as for writes",
["fpga/lib/axi/tb/axi.py:AXIMaster.read_logic/read_resp_logic, AXIRam"])
p("C38","Segmented DMA RAM access equals flat memory access",
"A write of any data at any address through the segmented RAM master changes exactly the bytes [addr, addr+len) of the flat memory image and every byte lane used is enabled; a read returns exactly those bytes.",
"every address, length, segment count and width",
"segment-split alignment cases are unbounded",
["fpga/lib/pcie/tb/dma_psdp_ram.py"])
p("C39","PTP clock time is well-formed and advances by the configured rate",
"The PTP time source keeps nanoseconds below 10^9 at every clock, never moves backwards without an explicit set/offset, and over any number of clocks the accumulated time equals start + sum of periods, including the fractional drift correction applied once every `rate` clocks.",
"every period, drift, number of clocks",
"roll-over and fractional carry need long runs",
[E+"ptp_td.py:PtpTdSource","fpga/lib/eth/rtl/ptp_td_phc.v"])
p("C40","PTP distribution messages survive serialisation",
"For every time message content, the serial bit stream produced by the time distribution source is deserialised by the sink to the same 14 words, whatever idle gap precedes it; a sink started together with the source never fails, takes over the source's counters a fixed number of clocks after each message was built, and once the source is left alone its whole state is the source's state a fixed number of clocks earlier, whatever it held before.",
"every message content, every gap",
"2^224 contents",
[E+"ptp_td.py:PtpTdSource/PtpTdSink"])
p("C41","Completion timestamps are extended to full seconds correctly",
"Given a completion timestamp whose low 16 bits of seconds are recorded, the driver returns the true full-width seconds value of the event as long as the event is less than 256 seconds old when it is processed.",
"every true time and cached value",
"fails only around roll-over of the cached upper bits",
["modules/mqnic/mqnic_ptp.c:mqnic_read_cpl_ts", MQ+":Rxq.process_rx_cq"])
p("C42","timespec arithmetic is exact integer nanosecond arithmetic",
"timespec_normalise preserves the value and yields |nsec| < 10^9 with seconds and nanoseconds of equal sign; add/sub/comparisons agree with integer nanosecond arithmetic; timespec_mod(a,b) is the floored remainder of a by b.",
"every pair of (sec,nsec), normalised or not, any signs",
"sign/carry combinations and unbounded shift loop",
["utils/timespec.c"])
p("C43","Flow steering always selects a configured queue",
"The RX queue map returns the indirection table entry at ((dest & app mask) + (hash & hash mask)) mod table size within the block of the requesting port, or the directly requested queue if direct steering is enabled; hence equal hashes (and dest) map to the same queue as long as the configuration is unchanged.",
"every hash, dest, masks, table content, port",
"2^64 inputs",
["fpga/common/rtl/mqnic_rx_queue_map.v"])
p("C44","Linux transmit ring: no overwrite, exact release, no lost wake-up",
"Whatever the interleaving of the transmit path with the completion path, a frame handed to an un-stopped Linux TX queue finds a free ring slot (no frame owned by the device is overwritten, at most size/2+1 descriptors are outstanding), each completion releases exactly the frame queued at the completed position, and whenever the queue is stopped while neither path is running, the ring is full and the device still owes a completion, so the queue will be woken.",
"every interleaving of transmit calls and completion passes at the granularity of single shared-memory accesses, every ring size",
"the race between stop/recheck and completion/wake needs specific interleavings that a test cannot force",
["modules/mqnic/mqnic_tx.c:mqnic_start_xmit", "modules/mqnic/mqnic_tx.c:mqnic_process_tx_cq", "modules/mqnic/mqnic_tx.c:mqnic_is_tx_ring_full"])
p("C45","Linux transmit bursts always end with a doorbell",
"When the stack has finished a burst of transmit calls (the last call does not announce further frames) the device has been told about every queued frame.",
"every sequence of transmit calls, including calls that drop their frame",
"needs a mapping failure on exactly the last frame of a burst",
["modules/mqnic/mqnic_tx.c:mqnic_start_xmit"])
p("C46","Transmit request tags are unique and every request is accounted for",
"Transmit requests outstanding at the same time carry different tags below OP_TABLE_SIZE; the number of requests issued for a queue minus the completions processed for it is exactly the number outstanding, so completion bookkeeping (op table, finish FIFO) never overflows or leaks.",
"every history of doorbells, requests and completions, in any order",
"leaks and tag collisions appear only after long histories with particular completion orders",
[SCH+":op_table_start_ptr, finish_fifo"])
p("C47","The indirection table behind AXI-lite is a memory",
"Every read accepted on the AXI-lite port of the RX queue map returns, exactly once and in order, what the table held when it was accepted; every write the master sees taken is performed exactly once and acknowledged by exactly one response; nothing else changes the table.",
"every sequence of bus cycles, any back-pressure and any interleaving of reads and writes",
"two-stage read pipeline under back-pressure and read/write arbitration",
["fpga/common/rtl/mqnic_rx_queue_map.v"])
p("C48","PCIe byte enables name exactly the bytes asked for",
"TLP.set_be(addr, length) in the PCIe simulation model encodes a request that enables exactly the bytes addr .. addr+length-1: every byte of the request is enabled iff it is one of them, and get_first_be_offset and get_be_byte_count recover the address of the first byte and the length.",
"every address and every length of at least 1; byte offsets for every pattern of byte enables",
"addresses and lengths are unbounded; tests try a few alignments",
["fpga/lib/pcie/tb/pcie.py:467-532"])
p("C49","PCIe memory writes store exactly the data",
"mem_write(addr, data) to an endpoint BAR or a root complex region, split into as many requests as payload size and 4 kB boundaries demand, leaves the region equal to the old contents with data at addr; every request is valid (TLP.check), within the maximum payload size and 64-bit iff its address needs it. A request with arbitrary byte enables changes exactly the enabled bytes.",
"every address, data of every length, every maximum payload size, every region; every byte enable pattern for a single request",
"the splitting depends on address, length and payload size together; tests sample lengths around a few boundaries",
["fpga/lib/pcie/tb/pcie.py:467-532","fpga/lib/pcie/tb/pcie.py:2413-2470","fpga/lib/pcie/tb/pcie.py:3576-3640"])
p("C50","PCIe memory reads return exactly the bytes stored",
"mem_read(addr, length), split into read requests, answered by completions and reassembled, returns exactly the bytes of the region, for every maximum read request size and payload size; every completion is valid, carries the ids of its request, at most the maximum payload, and ends at a 128-byte boundary or carries all remaining bytes. Function.mem_read, which a device uses to read the root complex, does this only when one request suffices.",
"every address, length, read request size, payload size and region contents; every byte enable pattern for a single request",
"request splitting and completion splitting interact; tests sample a few sizes",
["fpga/lib/pcie/tb/pcie.py:1984-2029","fpga/lib/pcie/tb/pcie.py:2364-2411","fpga/lib/pcie/tb/pcie.py:3528-3574","fpga/lib/pcie/tb/pcie.py:3975-4020"])
p("C51","A PCIe packet survives packing and unpacking",
"TLP().unpack(t.pack()) equals t for every valid TLP t.",
"every TLP with fields in range",
"the field values form a space too large to enumerate, and the packing functions of the base class have no test",
["fpga/lib/pcie/tb/pcie.py:553-668"])
p("C52","PCIe IO accesses move exactly the bytes asked for",
"io_write(addr, data) leaves the IO region equal to the old contents with data at addr; io_read(addr, length) returns exactly the bytes stored; every request moves one double word, is valid, and bytes not enabled are neither written nor read.",
"every address, length, alignment and region contents; every byte enable pattern for a single request",
"addresses and lengths are unbounded",
["fpga/lib/pcie/tb/pcie.py:1862-1948","fpga/lib/pcie/tb/pcie.py:2258-2352","fpga/lib/pcie/tb/pcie.py:3853-3939"])
p("C53","Root complex memory regions do not overlap",
"Memory (and IO) regions handed out by RootComplex.alloc_region never share a byte, and an access to a byte of a region reaches that region.",
"every sequence of allocations of every size",
"an overlap shows only for particular sequences of sizes, and then only when both regions are used",
["fpga/lib/pcie/tb/pcie.py:3282-3314"])
p("C54","PCIe capabilities do not overlap and the capability list reaches all of them",
"After any sequence of PcieCapList.register calls every registered id is present once, capabilities occupy disjoint registers, and software that follows the next pointers from the first capability meets each of them once and stops.",
"every sequence of registrations with fixed or automatic offsets, including re-registration and bumping",
"overlaps depend on the order and lengths of the registrations",
["fpga/lib/pcie/tb/pcie.py:231-326"])
p("C55","PCIe enumeration assigns non-overlapping BAR regions inside all bridge windows",
"After RootComplex.enumerate every BAR of every function has a region of the configured size, starting at a multiple of the size and inside the reported address range; no address belongs to two BARs; the IO, memory and prefetchable windows of every bridge cover all BARs below it, and its bus range all buses below it.",
"every tree of functions, bridges and switches of any depth and width, every BAR set-up, first and repeated enumerations",
"the layout depends on the whole topology and all BAR sizes; tests enumerate two or three fixed trees",
["fpga/lib/pcie/tb/pcie.py:4211-4507","fpga/lib/pcie/tb/pcie.py:1712-1731","fpga/lib/pcie/tb/pcie.py:2574-2600","fpga/lib/pcie/tb/pcie.py:150-159"])
p("C56","A memory or IO request reaches exactly the function that owns the address",
"After enumeration a memory or IO request sent by the root complex to an address of a BAR passes the bridges on the way and is delivered to the function with that BAR, whose match_bar returns that BAR and the offset from its base, and nothing else; a request to an unassigned address is delivered to no function.",
"every topology, every BAR set-up, every address",
"misrouting shows only for particular combinations of sizes and addresses",
["fpga/lib/pcie/tb/pcie.py:1733-1767","fpga/lib/pcie/tb/pcie.py:2615-2680","fpga/lib/pcie/tb/pcie.py:2795-2870","fpga/lib/pcie/tb/pcie.py:2978-3057"])
p("C57","PCIe buses are numbered consecutively and requests by bus number reach their bus",
"Enumeration numbers the buses 1, 2, 3, ... in depth first order; a configuration request or completion addressed by bus number passes exactly the bridges that lead to that bus, and goes nowhere if there is none.",
"every topology, every bus number",
"the ranges of all bridges on all levels have to fit together",
["fpga/lib/pcie/tb/pcie.py:4436-4473","fpga/lib/pcie/tb/pcie.py:2622-2648","fpga/lib/pcie/tb/pcie.py:2815-2830"])
p("C58","No completion is left unprocessed by the driver",
"With the interrupt handler of the driver and the card running concurrently, register writes posted and completions arriving at any time: whenever everything has come to rest, every completion written to host memory has been processed. An event dropped by a full event queue would silence its completion queue for ever.",
"every number of queues, every interleaving of card, register writes and interrupt handler",
"the windows between reading a ring empty, arming it and the next completion are a few cycles wide; no simulation visits all interleavings",
["fpga/common/tb/mqnic.py:552-580","fpga/common/tb/mqnic.py:674-679","fpga/common/tb/mqnic.py:813-860","fpga/common/tb/mqnic.py:1771-1778","fpga/common/rtl/cpl_write.v:297-387","fpga/common/rtl/cpl_queue_manager.v:452-570"])
p("C59","The Linux driver never loses a wake-up",
"With the interrupt handlers, the NAPI polls and the card running concurrently: whenever everything has come to rest every completion has been processed; no event is dropped if an event queue has as many entries as there are completion queues and the arm command of a poll does not overtake the consumer pointer update of the interrupt that scheduled it; napi_complete is never called with a missed event.",
"every number of queues, every budget, every interleaving of card, handlers and polls",
"races between poll completion, arming and new completions need particular timings on several CPUs",
["modules/mqnic/mqnic_eq.c:8-16","modules/mqnic/mqnic_eq.c:202-262","modules/mqnic/mqnic_rx.c:293-440","modules/mqnic/mqnic_tx.c:221-327","fpga/common/rtl/cpl_queue_manager.v:452-570"])
p("C60","UltraScale PCIe request descriptors lose nothing",
"A memory or IO request packed for the completer request stream, or a memory, IO or configuration request packed for the requester request stream, is unpacked with every field the stream transports unchanged; the byte enables mark exactly the bytes written. The 64-bit format of an address below 4 GB is not kept, and atomic operations and locked reads are accepted on receive but refused on send.",
"every request with fields in range, every payload",
"the descriptor has thirty packed fields; tests use a few values",
["fpga/lib/pcie/tb/pcie_us.py:120-269","fpga/lib/pcie/tb/pcie_us.py:340-482"])
p("C61","UltraScale PCIe completion descriptors lose nothing",
"A completion packed for the completer or requester completion stream is unpacked with every transported field unchanged; the byte enables of a requester completion mark exactly the bytes of the read it returns.",
"every completion with fields in range, every split of a read into completions",
"the byte enable formula depends on the address, the byte count and the length together",
["fpga/lib/pcie/tb/pcie_us.py:271-338","fpga/lib/pcie/tb/pcie_us.py:484-591"])
p("C62","Stream parity detects single bit errors",
"The parity sent with a frame is odd parity per byte; any error which flips an odd number of bits of some byte, or changes the parity, makes the check fail; errors flipping an even number of bits in every byte pass.",
"every frame, every error pattern",
"2^32 values per double word and as many error patterns",
["fpga/lib/pcie/tb/pcie_us.py:59-118"])
p("C63","UltraScale PCIe streams deliver every frame intact",
"Frames sent over the CQ, CC, RQ or RC stream come out in order and complete, with data, parity, byte enables, discontinue flag and sequence number as far as the stream has signals for them, whatever the pauses of source and sink; every frame arrives once enough cycles without pause have passed; packing, sending, receiving and unpacking give back the TLPs. A frame without data is dropped silently.",
"every stream, every bus width, every list of frames, every pause pattern",
"the alignment of frames to beats, the pause patterns and the packed side band signals combine without bound",
["fpga/lib/pcie/tb/pcie_us.py:646-1728"])
p("C64","Completions are written before they are committed, and committed in order",
"The completion write engine asks the right queue manager for an entry for every accepted request; writes every granted completion exactly once, to the address granted, with the phase bit in place of its top bit, and does not reuse its table slot while the DMA engine may still read it; commits an entry only after its write has finished, in request order, with the granted operation tag; commits nothing for a full or inactive queue; reports exactly one status per answered request, with its tag; the oldest request always waits for the surroundings or retires.",
"every number of ports, every table size, every run with any number of requests and any timing and order of responses and write completions",
"a host that sees the phase bit change before the data is written reads garbage; the order of responses and DMA completions is arbitrary and the table wraps",
["fpga/common/rtl/cpl_write.v:136-508"])
p("C65","Packets in the transmit and receive buffers do not overlap",
"The places the transmit engine hands out for DMA reads lie in the buffer and are disjoint until their packet has been sent; a packet whose bytes have all arrived is found at the place and in the length its table entry names; an empty buffer accepts descriptors. The receive engine's buffers are likewise disjoint. Exceptions proved: packets arriving back to back pass a stale space check and overwrite waiting packets; a size limit which is not a multiple of the step size lets a packet run past the end; over-long descriptors overwrite other packets; changing the receive size while buffers are in use makes them overlap.",
"every buffer, step and packet size, every run with any number of packets and any timing of descriptors, DMA writes and transmissions",
"overlap needs particular combinations of packet lengths, laps of the buffer and timing of the ready signal",
["fpga/common/rtl/tx_engine.v:626-688","fpga/common/rtl/tx_engine.v:733-747","fpga/common/rtl/rx_engine.v:678-701","fpga/common/rtl/rx_engine.v:840-869"])
p("C66","The transmit engine sends every packet once, in order, complete",
"For every accepted transmit request the engine fetches descriptors with the right queue and a tag no unfinished request has; hands the packets of requests that have descriptors to the transmit path in request order, each once, with the right length, queue and destination, only when all DMA reads have been reported, and with the bytes of its descriptors in the buffer until the transmit path has read them; sends one checksum command per packet; writes one completion per packet, in order, after its time stamp, with queue, pointer, length, time stamp and port; returns one status per request; keeps within its limit of outstanding descriptor requests; and does not stall. Exceptions proved: a checksum start of 128 or more loses its top bit; with counters too narrow for the number of reads a packet is sent before it has been read.",
"every table, buffer and counter size, every run with any number of requests and descriptors and any timing and order of descriptor, DMA, transmit and completion responses",
"five pointers chase each other around the descriptor table while responses arrive in any order; the defects need particular reuse of a table entry",
["fpga/common/rtl/tx_engine.v:248-948"])
p("C67","The receive engine delivers every packet once, in order, to the right memory",
"For every accepted receive request the engine orders one packet into a buffer that no packet waiting to be written overlaps, with a tag no unfinished request has; fetches descriptors for the packets in order from the queue the queue map chose; writes the bytes of each packet, from the first, into the memory its descriptors point to, each byte once, reading them from a buffer that holds the packet until a write is reported; writes one completion per packet that has a descriptor, in order, after a write has been reported, with queue, pointer, length, time stamp, hash and port, and the checksum of that packet if every checksum comes before a failed fetch; returns one status per request. Exceptions proved: with several writes the completion is sent and the buffer given up after the first; a report about an old write is taken for a new packet with the same tag; a failed fetch before the checksum shifts checksums by one packet; a descriptor that comes after the first report is lost together with a request slot; a packet longer than its descriptors is reported with its full length; a packet with nothing to write stops the engine for good.",
"every table and buffer size, every packet length, every number and length of descriptors, every run with any number of requests and any timing and order of responses",
"five pointers chase each other around the table while responses arrive in any order; the defects need particular orders of DMA reports, descriptors and checksums",
["fpga/common/rtl/rx_engine.v:250-1045"])
p("C68","The descriptor fetch engine fetches, commits and sends every granted block once, in order",
"Every accepted request is passed to the queue manager it names, in order; every response is reported once, with what it says; every granted block of descriptors is fetched from the address given, in full, to a slot of the descriptor RAM no unfinished block overlaps; its bytes stay there until the stream client has sent them; it is committed and sent only after the fetch has finished, in the order of the grants and under the tag of its request; a response never waits for a slot, requests are accepted while there is room, and the engine does not stop before everything is done. With several ports a commit not taken at once is lost (C68_lost_commit), and blocks of 256 bytes or more are sent truncated (C68_long_block).",
"every number of ports, table size and block size below 256 bytes, every run with any number of requests and any timing and order of responses and DMA reports",
"the loss needs two ports and a commit that waits; slots and tags are reused while reports arrive in any order",
["fpga/common/rtl/desc_fetch.v:195-647"])
p("C69","The statistics collector reports every increment once",
"Whatever increments arrive, at any rate and on any number of counters at once, the sum of the increments reported for a counter on the stream never exceeds the sum of those that arrived, whatever the memory held before reset; everything that arrived before an update request is reported within 2*COUNT+1 cycles of it while the receiver is ready, and everything is reported within UPDATE_PERIOD + 2*COUNT cycles of its arrival in any case. Exception proved: when the receiver is slow the unreported sum of a counter runs over STAT_INC_WIDTH and increments are lost, though what is kept stays right modulo 2^STAT_INC_WIDTH.",
"every number of counters, every width and period, every run of any length with any increments, any updates and any stalls",
"increments arrive in the very cycles in which the scan reads, clears and rewrites the same counter; a test sees a few interleavings",
["fpga/common/rtl/stats_collect.v:70-233"])
p("C70","The statistics counters add up every increment and read back exactly",
"After reset, whatever the memory held, every answer to a read on the register interface is the selected word of the sum, modulo 2^STAT_COUNT_WIDTH, of all increments of that counter accepted more than PIPELINE cycles before the read; answers come in order, one per read, PIPELINE+1 cycles after it is accepted; what is accepted is exactly what is handed over on the two interfaces; reads are accepted within PIPELINE+1 cycles, increments too while nobody reads; addresses select the counter and word they should and the words make up the whole counter. Exceptions proved: back-to-back polling of a counter keeps its increments, and all behind them, out for as long as it lasts; a counter wider than the bus can be read torn.",
"every number and width of counters, bus width and pipeline length of at least two, every run of any length with any increments and reads",
"the read-modify-write pipeline goes wrong only if two operations on one counter overlap in a particular distance; starvation needs an unending run",
["fpga/common/rtl/stats_counter.v:60-319"])
p("C71","Transmit checksum offload puts the right checksum into the right frame",
"What leaves the transmit checksum module is the frames that arrived, in order and word for word, where a frame whose command asked for a checksum has at byte positions csum_offset and csum_offset+1 the complement of the ones' complement sum of its own bytes from csum_start on, and no other byte, keep, last or side signal is changed; nothing is lost, and once the input pauses everything has left after a bounded number of cycles; if the stack left the pseudo header sum in the field, the frame that leaves verifies at the receiver. Exceptions proved: a frame longer than the data FIFO blocks the module for ever; with USE_INIT_VALUE and an odd start position the initial value is added with its bytes exchanged.",
"every bus width of 4*2^d lanes up to 65536, every FIFO depth and latency, every run of any length with any frames, commands and stalls",
"the checksum of one frame is computed while others are in the FIFOs, and the field can straddle two words; tests cover a few widths, lengths and offsets",
["fpga/common/rtl/tx_checksum.v:36-546","fpga/common/rtl/mqnic_egress.v:120-169"])
p("C72","A DMA read operation is split into legal PCIe read requests that ask for exactly its bytes",
"The read requests made for an operation name, in order, exactly the bytes from pcie_addr to pcie_addr+len-1, each once; each request is nonempty, at most the maximum read request size and within a 4 KiB page; the RAM address noted for its tag is the end of its part of the buffer; an operation of length zero is one request for one dword with no byte enabled; the header credits set aside suffice however the completer splits. Exceptions proved: with a maximum of 4096 bytes an operation of at least a page that ends at a page end is followed by a request for the whole next page whose data overwrites the buffer; when len plus the dword offset overflows LEN_WIDTH the first request exceeds the maximum; the data credits set aside for the last request can be one short.",
"every configuration of widths, maximum read request size and completion boundary, every address, every length, every legal split of the completions",
"the split depends on five quantities with boundary cases only at particular alignments; tests use a few alignments and lengths, and the maximum request size of 4096 with page-aligned ends is rarely among them",
["fpga/lib/pcie/rtl/dma_if_pcie_rd.v:655-880"])
p("C73","DMA read completions put every byte of host memory in its place in the RAM buffer",
"A successful completion for part of a read request writes exactly that part of the buffer of the operation, each byte from the right byte of host memory, across RAM words, segments and the end of the RAM, and changes nothing else; it is taken as the last one of its request exactly if it is. For a whole operation, whatever the split into completions and whatever the order in which the requests are answered, once every byte is answered the buffer equals host memory, and until then each byte is old or right.",
"every number and width of RAM segments (powers of two, at least two segments), every RAM address width, every alignment in host memory and RAM, every length, every legal split and order of completions",
"there are three independent alignments (host dword, RAM word, completion boundary) and the rotation, masks, and segment addresses depend on all of them; tests sample a few",
["fpga/lib/pcie/rtl/dma_if_pcie_rd.v:938-965","fpga/lib/pcie/rtl/dma_if_pcie_rd.v:1000-1065","fpga/lib/pcie/rtl/dma_if_pcie_rd.v:1185-1250"])
p("C74","Every DMA read descriptor is reported once, with its own tag and the right error, when its data is in the RAM",
"Requests with answers to come have distinct PCIe tags, and what is noted for a tag stays until its request ends. Each descriptor is reported at most once, with its tag, and with an error exactly if one of its requests failed; when nothing is left to do each has been reported. At the moment a report without error is made, the buffer in the RAM holds the bytes of host memory, though RAM segments finish their writes at different times. The RAM changes only inside buffers of descriptors not yet reported. The interface never gets stuck while it has something to do, and its status FIFO never overflows. Exceptions proved: with 16 tags or fewer the report can come before the data; a poisoned completion followed at once by another of the same request puts its tag into circulation twice.",
"every number of tags from 32 and of operations, every run of any length with any number of descriptors in flight, every order and split of completions, every delay of each RAM segment",
"operation tags, PCIe tags, wrapping counters, per-segment write acknowledgements and the status FIFO interact; a wrong report needs a particular interleaving of hundreds of events",
["fpga/lib/pcie/rtl/dma_if_pcie_rd.v:795-890","fpga/lib/pcie/rtl/dma_if_pcie_rd.v:1000-1390","fpga/lib/pcie/rtl/dma_if_pcie_rd.v:1479-1753"])
p("C75","A DMA write puts exactly the bytes asked for into host memory, in order",
"Whatever descriptors are given to the DMA write interface, with data from the RAMs or immediate data, and however its parts and the RAM segments interleave: every TLP on its output is well formed (its start marked once, as much data as the header says, no more than the maximum payload, within a 4 KB page); the bytes written by the TLPs, read off headers, byte enables and strobes as the PCIe specification says, are a prefix of the bytes of the descriptors in the order they were given, with nothing added; and the bytes of every descriptor that has its status are among them. Zero-length operations write nothing. Exception proved: with a maximum payload of 4096 bytes a TLP of that size loses its data.",
"every bus width, number of RAM segments, operation table size and maximum payload to 2048 bytes, every length and alignment, every run of any length, every delay of each RAM segment",
"four pointers, two state machines, a mask FIFO and segment queues run independently; offsets of address, RAM and bus meet in ways that a test samples only",
["fpga/lib/pcie/rtl/dma_if_pcie_wr.v:500-1000","fpga/lib/pcie/rtl/dma_if_pcie_wr.v:1109-1157"])
p("C76","The status of a DMA write comes once, in order, after its data has been sent",
"The status outputs are the tags of the descriptors, in order, each once. With sequence numbers in use, a status comes only after the sequence numbers of all TLPs of its descriptor and of all earlier ones have come back, in whatever order they come. TLP i carries sequence number i modulo the table size and no two TLPs waiting for theirs share one. Without new descriptors the interface comes to rest after a bounded number of events, and when it has nothing left to do every descriptor has been written and has its status.",
"every table size, every run of any length, every order of sequence numbers coming back",
"the table wraps around and its slots are reused while acknowledgements come out of order; deadlock needs a particular state of all queues",
["fpga/lib/pcie/rtl/dma_if_pcie_wr.v:577-641","fpga/lib/pcie/rtl/dma_if_pcie_wr.v:880-995","fpga/lib/pcie/rtl/dma_if_pcie_wr.v:1122-1197"])
p("C77","The number of TLPs in flight keeps to TX_LIMIT",
"DMA reads: the number of TLPs whose sequence number has not come back never exceeds TX_LIMIT, and fewer never block. DMA writes: it never exceeds TX_LIMIT + 1 when that fits the counter, and fewer than TX_LIMIT never block. Exceptions proved: the limit of writes is exceeded by one, for every TX_LIMIT, by TLPs of one beat; and when TX_LIMIT is one less than a power of two the counter of writes loses a TLP whenever it is full, so that there is no limit at all.",
"every TX_LIMIT, every run of any length with any pattern of beats and returning sequence numbers",
"one TLP too many is invisible to a test whose receiver has room; the drift of the counter needs a long run at the limit",
["fpga/lib/pcie/rtl/dma_if_pcie_wr.v:880-1019","fpga/lib/pcie/rtl/dma_if_pcie_rd.v:815-845","fpga/lib/pcie/rtl/dma_if_pcie_rd.v:1366-1385"])
p("C78","The interrupt rate limiter loses no interrupt and makes up none",
"An interrupt leaves the rate limiter at most as often as it was requested. Every request that was taken is followed by that interrupt on the output, within a bounded time once requests cease and the output is taken; until then it is kept, whatever other requests come and however long the output is blocked. Exception proved: while requests of other vectors come without pause the timers are not looked at, and an interrupt held back is never sent.",
"every number of vectors, every run of any length with any requests, settings that change at any time, and any pattern of the output being taken",
"the state of a vector is in a RAM that requests and the scan of the timers read and write in turn; losing one needs the two to meet in particular cycles",
["fpga/lib/pcie/rtl/irq_rate_limit.v:60-272"])
p("C79","The interrupt rate limiter keeps the minimum interval",
"If an interrupt appears on the output, the same interrupt does not appear again until more than the minimum interval set at that time is over, in ticks of the prescaled time, unless the 17-bit time counter wraps within the interval. Exception proved: if it wraps, the interval counts as over at once.",
"every number of vectors, every run of any length, every interval and prescaler setting, changing at any time",
"the wrap of the time counter needs 131072 ticks, and the scan has to meet the vector just after it",
["fpga/lib/pcie/rtl/irq_rate_limit.v:60-272"])
p("C80","An MSI-X message is the one programmed for its vector",
"Every message that appears on the output is a memory write of the data of its vector in the table to the address of that vector, in the 4DW format exactly if the address needs it or it is forced. The table is read while the function is enabled and neither the function nor the vector is masked. A message that is offered stays unchanged until it is taken, and only then another appears.",
"every number of vectors, every content of the table, changing in any cycle, every run of any length",
"the table may be reprogrammed in any cycle of the state machine",
["fpga/lib/pcie/rtl/pcie_msix.v:241-431"])
p("C81","An interrupt request leads to its MSI-X message",
"A request taken while nothing masks it leads to the message of that vector as soon as there is room (all vectors). For vectors 0 to 31: a vector is never sent more often than requested, and a request that was masked is kept and leads to the message within a bounded time after everything is enabled and unmasked and requests cease. Exception proved: a pending vector that stays masked keeps all other pending vectors from being sent.",
"every number of vectors, every run of any length, every pattern of masking, enabling and back pressure",
"pending bits are kept in a RAM that is read, modified and written over several cycles, scanned in between",
["fpga/lib/pcie/rtl/pcie_msix.v:241-431"])
p("C82","Masked MSI-X interrupts of vectors 32 and up are lost",
"The pending bits are read at the address of words of 64 bits and written at that of words of 32. With 64 vectors a request of one of the vectors 32 to 63 taken while masked or disabled is never sent unless it is requested again. With 128 vectors a masked request of vector 32 leads to the message of vector 96.",
"every run of any length with 64 vectors and any other requests",
"absence of a message for ever is not testable; tests of masking use low vectors",
["fpga/lib/pcie/rtl/pcie_msix.v:249","fpga/lib/pcie/rtl/pcie_msix.v:313-392"])
p("C83","Arbitrated multiplexers lose, duplicate and mix up nothing",
"Every beat taken at an input of the descriptor, completion, request, event and DMA descriptor multiplexers and of the stream multiplexer comes out exactly once, marked with the number of its input, in the order of that input; at most three beats of an input are under way. Frames come out whole. What is offered at the output stays unchanged until taken.",
"every number of inputs, every arbitration setting, every run of any length with any offers and any pattern of the output being taken",
"input registers, arbiter grant and output registers change in the same cycle; a lost beat needs a particular sequence of offers and back pressure",
["fpga/common/rtl/desc_op_mux.v:94-287","fpga/common/rtl/cpl_op_mux.v:76-260","fpga/common/rtl/tx_req_mux.v:76-265","fpga/common/rtl/event_mux.v:57-210","fpga/lib/pcie/rtl/dma_if_desc_mux.v:110-340","fpga/lib/axis/rtl/axis_arb_mux.v:95-308"])
p("C84","Arbitrated multiplexers with round robin starve no input",
"With round robin, between a beat being taken at its input and its coming out at most PORTS+2 frames (transfers) of other inputs end at the output, and for transfers of one beat it comes out within PORTS+3 cycles if the output is taken. With fixed priority an input of lower priority is never served while the first always offers something.",
"every number of inputs, every run of any length, whatever the other inputs do",
"starvation is about runs without bound",
["fpga/common/rtl/desc_op_mux.v:94-287","fpga/lib/axis/rtl/axis_arb_mux.v:95-308"])
p("C85","RAM commands reach the RAM they are for",
"Every command taken by a demultiplexer of the DMA RAM interface reaches the RAM of the port in the top bits of its select exactly once, with the rest of the select, in order; at most two are under way; a command offered to a RAM stays unchanged until taken.",
"every number of ports, every width, every run of any length, every pattern of RAMs taking commands",
"output registers and order FIFO fill and drain together; a lost command needs a particular pattern of back pressure",
["fpga/lib/pcie/rtl/dma_ram_demux_rd.v:92-237","fpga/lib/pcie/rtl/dma_ram_demux_wr.v:93-264"])
p("C86","RAM read responses come back in the order of the commands",
"The responses given are those of the RAMs the commands went to, in the order of the commands, whatever the RAMs' delays: the response to the i-th command is the one its RAM gave for it. No response taken from a RAM is lost, the output FIFO never overflows, none is taken from a RAM that owes none. If the RAMs answer and responses are accepted, all commands are answered within a bounded time, whatever commands follow.",
"every number of ports, every FIFO size, every run of any length, every delay of every RAM and every pattern of back pressure",
"the half full flag lags a cycle behind, the order FIFO wraps; RAMs with different delays interleave in too many ways",
["fpga/lib/pcie/rtl/dma_ram_demux_rd.v:96-336"])
p("C87","RAM write done signals come in the order of the commands",
"After d done signals the first d writes are done at their RAMs, even if RAMs with different delays finish out of order. If no RAM signals done more often than it took commands, none is lost: once the first N writes are done at their RAMs the done signal has been given N times within as many cycles as were missing and one more, whatever happens then.",
"every number of ports, every FIFO size, every run of any length, every delay of every RAM",
"the done counters saturate at the size of the FIFO; that it suffices depends on the number of commands that can be outstanding",
["fpga/lib/pcie/rtl/dma_ram_demux_wr.v:93-325"])
p("C88","What comes back for a request goes to the input the request came from",
"Requests of different inputs or with different tags leave the descriptor, completion, transmit request and DMA descriptor multiplexers with different tags. A status with the tag of a request comes to the input that request was taken at, to no other, with the tag it had there; so does descriptor data, beat by beat, in order, none lost; and RAM commands with the select of a DMA descriptor go to the RAM of the input it came from.",
"every number of inputs, every tag width that fits, every run of any length with any back pressure",
"covers all tags and inputs and all widths",
["fpga/common/rtl/desc_op_mux.v:173","fpga/common/rtl/desc_op_mux.v:276-437","fpga/common/rtl/cpl_op_mux.v:144-283","fpga/common/rtl/tx_req_mux.v:140-277","fpga/lib/pcie/rtl/dma_if_desc_mux.v:199-361"])
p("C89","Frames sent on the simulated PCIe interface are received unchanged and in order",
"Frames given to PcieIfSource.send, whose fields fit the bus and whose data is as long as the header says, come out of PcieIfSink in the same order with the same prefix, header, data, parity, function, BAR, error and sequence number, however source and sink pause; no assertion of the sink fails. When nothing is on its way all have been received, and without pauses that state is reached. Exception proved: tlp_abort is never driven, so the sink always reads 0.",
"every number of segments and lanes, every frame, every order of coroutine steps and pauses, every length of run",
"frames straddle segments and transactions in ways that depend on all lengths before; tests use a few lengths and pause patterns",
["fpga/lib/pcie/tb/pcie_if.py:104-180","fpga/lib/pcie/tb/pcie_if.py:277-290","fpga/lib/pcie/tb/pcie_if.py:421-542","fpga/lib/pcie/tb/pcie_if.py:633-706"])
p("C90","Parity of PCIe interface frames",
"check_parity accepts a frame exactly if there is a parity nibble for each data dword with odd parity per byte, and even parity per byte of header and prefix; update_parity makes it so and changes nothing else; a single bit flipped in data, header or prefix is noticed.",
"every frame with any data, header and prefix",
"the folding tricks work on all bits at once; a test compares a few values",
["fpga/lib/pcie/tb/pcie_if.py:76-101","fpga/lib/pcie/tb/pcie_if.py:170-180"])
p("C91","Configuration space accesses read and write exactly the addressed bits",
"config_write of any bytes at any address changes, in each register of the simulated function, exactly the bits in the bytes written: writable bits take the value, write-one-to-clear bits are cleared by ones, all others and all other registers keep their value. config_read returns the bytes of the registers; what was written to writable bits is read back. Exceptions are proved one by one: read completion boundary, link capabilities, device status, secondary status, registers whose access raises an exception.",
"every state of the attributes, every layout of capabilities, every address, length and data",
"195 attributes in some 60 registers with shifts and masks written by hand; the tests access a handful",
["fpga/lib/pcie/tb/pcie.py:149-158","fpga/lib/pcie/tb/pcie.py:205-262","fpga/lib/pcie/tb/pcie.py:1056-1337","fpga/lib/pcie/tb/pcie.py:1420-1525","fpga/lib/pcie/tb/pcie.py:1638-1686","fpga/lib/pcie/tb/pcie.py:2172-2199","fpga/lib/pcie/tb/pcie.py:2559-2608","fpga/lib/pcie/tb/pcie.py:3647-3732"])
p("C92","MSI interrupts reach the handlers registered for them",
"After any sequence of configure_msi and msi_register_callback calls on any devices, issue_msi_interrupt(n) of a configured device calls exactly the callbacks registered for message n of that device, in order, and of no other device; messages the device does not support and devices that are not configured deliver nothing. Up to 2048 devices; beyond, message numbers wrap around (proved). Mask bits have no effect (proved).",
"every sequence of calls, every number of devices, every capability layout, 32 and 64 bit addresses",
"message numbers are carved out of a shared range and pass through configuration registers with byte masks and field updates; a test has one device",
["fpga/lib/pcie/tb/pcie.py:1464-1474","fpga/lib/pcie/tb/pcie.py:3266-3269","fpga/lib/pcie/tb/pcie.py:4111-4209"])
p("C93","Frames sent over XGMII arrive in order and unchanged",
"With an XGMIISource driving an XGMIISink of the same width (4 or 8 lanes), any gap, deficit idle count on or off, start in lane 4 or not: at any time the frames received are the first of those sent, in order, with the same bytes and no control flags; with enough further clocks all have arrived. Frames start with 0x55 and are at least a word long. A frame with an error flag beyond the first word is received up to the first error, with the error marked there. Shorter frames get the end and idle characters appended (proved).",
"every sequence of sends and enabled or disabled clocks, any number and length of frames, every setting of ifg, enable_dic, force_offset_start",
"the start lane, the remainder of the frame and the deficit together determine every word; a test sends a few lengths with one gap",
["fpga/lib/eth/tb/xgmii_ep.py:43-110","fpga/lib/eth/tb/xgmii_ep.py:118-245","fpga/lib/eth/tb/xgmii_ep.py:248-345"])
p("C94","Gaps between XGMII frames are as long as configured",
"On the wire, the number of characters from the end of a frame (its terminating character included) up to the start of the next is at least the configured gap without deficit idle count; with it, the sum over any run of consecutive gaps falls short of as many times the configured gap by at most 3 characters. With it, a configured gap of at least a word, frames queued from the beginning and no forced offset, the sum exceeds it by at most 3 characters.",
"every sequence of sends and clocks, every run of consecutive gaps, every gap, width and setting",
"an average over arbitrarily long runs; the deficit accumulates over frames and can drift if an adjustment is off by one",
["fpga/lib/eth/tb/xgmii_ep.py:118-245"])
p("C95","Frames sent over GMII, MII and RGMII arrive in order and unchanged",
"With a source driving a sink, for GMII, GMII in MII mode, MII, and for RGMII at all speeds: at any time the frames received are the first of those sent, in order, with the same bytes and the same error flag on each byte; with enough further clocks all have arrived. In the nibble modes this holds for frames in which 0xD5 does not appear across a byte boundary before the first byte 0xD5, in particular for all frames with the usual preamble. GMII frames need two bytes; one byte frames merge with the next (proved).",
"every sequence of sends and enabled or disabled clocks, any number and length of frames, any error flags",
"nibbles are realigned by looking for the start delimiter in data that may contain anything; RGMII splits each byte over two clock edges and encodes the error flag into one control line",
["fpga/lib/eth/tb/gmii_ep.py:33-276","fpga/lib/eth/tb/mii_ep.py:33-260","fpga/lib/eth/tb/rgmii_ep.py:31-106"])
p("C96","Frames sent over a 10GBASE-R SerDes link arrive in order and unchanged",
"With a BaseRSerdesSource driving a BaseRSerdesSink of the same configuration, with or without scrambler and bit reversal, any gap, deficit idle count on or off, start in lane 4 or not: at any time the frames received are the first of those sent, in order, with the same bytes and no error flags; with enough further clocks all have arrived. The two need not start together: from any state of scrambler, wire and sink, two idle clocks are enough for everything sent afterwards to arrive. The gaps between frames are as long as configured, as for XGMII. Frames start with 0x55 and are at least 8 bytes. Error flags are kept only to the block (proved).",
"every sequence of sends and enabled or disabled clocks, any number and length of frames, every configuration, every initial state for resynchronisation",
"the scrambler state depends on everything sent before and resynchronises by itself only if the taps match on both sides; block type, lane and gap accounting interact",
["fpga/lib/eth/tb/baser_serdes_ep.py:78-96","fpga/lib/eth/tb/baser_serdes_ep.py:98-355","fpga/lib/eth/tb/baser_serdes_ep.py:358-680"])
p("C97","After any order of opening and closing queues, driver and hardware agree on every queue",
"However EQs, CQs, TX and RX queues are opened, closed, enabled, disabled and armed (closing a CQ after its rings and an EQ after its CQs), every open queue is, in the registers of the hardware, what the driver object says: number, enable, size, block size, buffer address, parent queue, producer pointer. No two open queues share a number, every queue enabled in the hardware belongs to an open object, a call fails only if the object is already open or no number is free and then changes nothing, and with everything closed all numbers are free again in the same order. Holds for page aligned rings up to 32768 entries and blocks up to 8; outside these limits it fails (proved).",
"every sequence of operations in order, any number of queues, any sizes and addresses, any register contents before Interface.init",
"numbers are reused, several commands go through one packed register, and the queue state depends on the whole history of opens and closes",
["fpga/common/tb/mqnic.py:476-531","fpga/common/tb/mqnic.py:610-665","fpga/common/tb/mqnic.py:713-786","fpga/common/tb/mqnic.py:893-968","fpga/common/rtl/queue_manager.v:465-545","fpga/common/rtl/cpl_queue_manager.v:478-583"])
p("C98","Completions of every open ring find their way back to it",
"At any time, for every open TX or RX queue, the completion queue the hardware has for it is enabled and is that of the ring's Cq object, whose source ring is this ring; the event queue of that is enabled and its table leads from the event source back to the Cq. So `cq_table[event_source]` never fails, and the table has nothing but open CQs.",
"every sequence of operations in order, any number of queues",
"the chain crosses three objects of the driver and two queue managers, and every link is changed by a different call; a stale link shows only after reuse of a number",
["fpga/common/tb/mqnic.py:533-537","fpga/common/tb/mqnic.py:552-581","fpga/common/tb/mqnic.py:610-665","fpga/common/tb/mqnic.py:713-770"])
p("C99","Opening an interface brings up every queue, and closing it takes all down so that it can be opened again",
"Interface.open with an event queue and at least as many CQs as TX and RX queues enables every TX and RX queue of the hardware, each belonging to a ring of the interface with its completions coming back; with fewer CQs it fails and the port stays down. Interface.close disables all queues and gives back all numbers, so that open works again.",
"any numbers of queues, any buffer addresses, any operations in between",
"the number of queues comes from the hardware; what is left over after a failed or repeated open is not visible in a single run",
["fpga/common/tb/mqnic.py:1275-1422","fpga/common/tb/mqnic.py:1424-1449","fpga/common/tb/mqnic.py:1451-1482"])
p("C100","Concurrent non-posted requests share the tags safely and all return",
"However many coroutines of the test device issue non-posted requests at once, and however they and the completions are interleaved: outstanding requests have different tags below the number of tags; a tag is marked used exactly while a request has it, so the assert in release_tag never fails; without timeouts each operation returns exactly the completions of its own request, and when nothing can go on any more all operations have returned. With timeouts a late completion is given to the next request with the same tag (proved).",
"any number of operations, any number of tags, every interleaving of coroutines, completions and timeouts, any requests and any completer that answers completely",
"who gets which tag depends on the interleaving; lost wake-ups and cross delivery need more requests than tags and particular timing",
["fpga/lib/pcie/tb/pcie_if.py:1468-1498","fpga/lib/pcie/tb/pcie_if.py:1500-1544"])
p("C101","A DMA read of the test device returns the bytes of host memory",
"dma_mem_read(addr, length) issues only reads within the memory, no longer than the maximum read request size and not across 4 kB boundaries, in the address format the address needs, and returns exactly the bytes at addr, whatever other operations are under way, with however few tags, and in whatever order the completions of the different requests come back.",
"every address, length, memory, max payload size, max read request size, number of tags and every interleaving without timeouts",
"the read is split by address and size, runs as many coroutines, and its completions are cut at the read completion boundary and come back interleaved",
["fpga/lib/pcie/tb/pcie_if.py:1657-1721","fpga/lib/pcie/tb/pcie_if.py:1500-1544"])
p("C102","The asynchronous AXI stream FIFO carries data between two clocks unchanged",
"Between unrelated clocks, the asynchronous FIFO delivers the words it accepted, in order and unchanged, never more than fit; in frame mode exactly the frames reported good, whole; in marking mode every frame whole or truncated with the bad frame marker as reported; a word offered stays until taken; and with the output ready and both clocks running everything committed comes out within a bounded number of edges.",
"every depth, pipeline length and configuration, every input, every interleaving of the edges of the two clocks, every skew between the bits crossing from one to the other within a period",
"simulation has no skew between the bits of a bus and runs only a few clock ratios; a pointer seen with half of its bits changed shows in hardware only",
["fpga/lib/axis/rtl/axis_async_fifo.v:262-306","fpga/lib/axis/rtl/axis_async_fifo.v:383-529","fpga/lib/axis/rtl/axis_async_fifo.v:569-674","fpga/lib/axis/rtl/axis_async_fifo.v:734-884"])
p("C103","Completions find their way back to the requester",
"After enumeration, a completion sent by any function of the simulated PCIe tree or by the root complex is handled by the function whose ID it carries as requester, or by the root complex when it carries its ID; a completion for an ID no function has is handled by none. Messages routed by ID reach their receiver.",
"every tree of root ports, switches and devices, every numbering without duplicates, every sender, every receiver, any number of enumerations",
"testbenches have one root port and one device; which of several bridges passes a packet up or down depends on the whole tree",
["fpga/lib/pcie/tb/pcie.py:2616-2697","fpga/lib/pcie/tb/pcie.py:2707-2778","fpga/lib/pcie/tb/pcie.py:2799-2876","fpga/lib/pcie/tb/pcie.py:2978-3066"])
p("C104","Requests of a function reach the right BAR or host memory",
"After enumeration, a memory or IO request sent by any function to an address of any BAR in the tree is handled by the function that has the BAR; one to an address outside the ranges handed out by enumeration reaches the root complex; one to an address that no BAR has is handled by no function.",
"every tree, every sender, every address, every set of BARs",
"device to device traffic and traffic across several switches is not exercised by the testbenches; DMA into host memory only from one place in the tree",
["fpga/lib/pcie/tb/pcie.py:2656-2677","fpga/lib/pcie/tb/pcie.py:2740-2760","fpga/lib/pcie/tb/pcie.py:2830-2849","fpga/lib/pcie/tb/pcie.py:3018-3046"])
p("C105","A read to nowhere is answered",
"A read that some bridge passes down but no function takes is answered with an unsupported request completion that returns to the function that sent the read; a memory write is not answered.",
"every tree in which ports are connected and bridges of switches have no BARs, every sender, every address no BAR has",
"a missing or misrouted answer shows only as a requester that waits forever, for addresses in the gaps between BARs",
["fpga/lib/pcie/tb/pcie.py:2865-2876","fpga/lib/pcie/tb/pcie.py:3025-3055","fpga/lib/pcie/tb/pcie.py:2661-2677"])
p("C106","The AXI stream width adapter keeps bytes and frames",
"The bytes in use, frame ends and the ID, destination and user signals at frame ends that leave axis_adapter are those that entered it, in order, nothing lost, doubled or changed; where tkeep is disabled all lanes count as used.",
"every pair of widths of which one is a multiple of the other, every input, every timing of valid and ready on both sides",
"the testbenches use a few width pairs and timings; losses need the buffer, a partial word and back pressure to coincide",
["fpga/lib/axis/rtl/axis_adapter.v:118-321"])
p("C107","The AXI stream width adapter does not hold anything back",
"When the sender pauses after a complete frame and the receiver keeps taking transfers, everything accepted has been delivered within a fixed number of cycles; a transfer offered and not taken stays offered unchanged.",
"every pair of widths, every earlier input and timing",
"a stuck last word shows only for a frame length and timing that leave the adapter in one particular state",
["fpga/lib/axis/rtl/axis_adapter.v:170-223","fpga/lib/axis/rtl/axis_adapter.v:260-317"])
p("C108","The AXI stream width adapter leaves no gaps",
"When transfers at the input use all lanes, except the last of a frame which uses the lowest ones, so do transfers at the output.",
"every pair of widths, every input, every timing",
"receivers of Ethernet frames rely on tkeep being contiguous; a gap shows only for particular frame lengths",
["fpga/lib/axis/rtl/axis_adapter.v:176-205","fpga/lib/axis/rtl/axis_adapter.v:265-300"])
p("C109","10G receiver: block lock is found, justified and given up",
"Block lock is declared only after 64 good sync headers in a row, given up only when 16 of at most 64 headers in a row were bad, and not kept over 64 headers of which 31 are bad. On a proper 66 bit block signal the right alignment is found and locked within a fixed number of cycles and lock is then kept. A bit slip is asked for only after a bad header, for the configured number of cycles, and the effect is looked at only after the configured pause.",
"every sequence of headers, every BITSLIP_HIGH_CYCLES and BITSLIP_LOW_CYCLES, every initial alignment",
"there are too many header sequences; the tests see lock come and go for one signal",
["fpga/lib/eth/rtl/eth_phy_10g_rx_frame_sync.v:67-140"])
p("C110","10G receiver: the high error rate flag follows the error rate",
"The flag is raised when there are 16 bad headers within a time interval, is up only after an interval with that many, and is lowered by an interval with fewer. The interval has the configured length.",
"every sequence of headers, every COUNT_125US",
"the limit cases (15 or 16 errors, error in the last cycle, COUNT_125US a power of two) are not in the tests",
["fpga/lib/eth/rtl/eth_phy_10g_rx_ber_mon.v:62-119"])
p("C111","10G receiver: watchdog reset and link status",
"A reset of the transceiver is asked for exactly after a run of time intervals in each of which no control block was seen or errors abounded. The link status goes up only after a run of intervals without such failure and with block lock, and does so after 16 of them; it goes down when lock is lost or errors abound.",
"every sequence of inputs, every COUNT_125US",
"the runs span 16 intervals of tens of thousands of cycles; the tests see one of them",
["fpga/lib/eth/rtl/eth_phy_10g_rx_watchdog.v:71-170"])
p("C112","The simulated PTP clock keeps time",
"After n clock edges both times of the simulated PTP clock have advanced by n periods and the drift correction, applied once in drift_rate cycles; the nanoseconds stay below 10^9; a time that was set is shown after the next edge.",
"every period, drift and drift rate, every number of edges",
"the seconds roll over after 10^8 edges and the drift shows only in the long run",
["fpga/lib/eth/tb/ptp.py:33-138"])
p("C113","The PTP clock keeps time",
"After reset the time of day and the 64 bit time are the sum of the periods in force and the drift corrections, one in DRIFT_RATE cycles; nanoseconds stay below 10^9; time never moves back between loads; a loaded time is shown.",
"every configuration of widths, period and drift, every sequence of period changes, any length of run",
"a second is 10^8 cycles; the look ahead for the roll over is three cycles deep and meets changes of the period in any of them",
["fpga/lib/eth/rtl/ptp_clock.v:36-321"])
p("C114","PTP clock: an offset is applied exactly as often as asked",
"An offset adjustment of value a and count m moves both times by m times a against the clock without adjustment, input_adj_active is high for exactly m cycles meanwhile.",
"every value and count, at any moment, any length of run",
"tests try a few values when nothing else is pending",
["fpga/lib/eth/rtl/ptp_clock.v:120-247"])
p("C115","Periodic output: pulses come at the given times",
"The output is high exactly when the time is within the given width of start + j * period, two cycles late: never outside, and always within from one period after lock on; it locks with the first pulse if the start lies ahead, and catches up with a start in the past, however long ago. A new start or period, a step of the clock or a reset begins anew with the output low; no pulse begins while disabled.",
"every start, period and width, every clock without steps whose increment is a quarter of pulse and gap at most, any length of run",
"which pulse is missed depends on how clock, start and the three cycles of calculation meet; sums carry into the seconds only rarely",
["fpga/lib/eth/rtl/ptp_perout.v:36-311"])
p("C116","Generated clock initialisation: the listed registers are written",
"The module generated from register lists and multiplexer settings writes, on the I2C bus, exactly the listed registers of each clock generator, with the listed values, in order and once, whatever page and address pointer the device was left with; lists for another device behind another multiplexer channel do not reach it; a delay in the list comes between the registers before and after it.",
"every number of sections, every register list, any initial state of the devices, any pace of the I2C master",
"pages and the running address are remembered by the generator over the whole list; tests run one generated file, if any, and no model of the device",
["fpga/lib/eth/example/HTG9200/fpga_25g/pll/si5341_i2c_init.py:9-76", "fpga/lib/eth/example/HTG9200/fpga_25g/pll/si5341_i2c_init.py:77-585"])
p("C117","I2C initialisation module: the table is carried out",
"The module puts on the bus the starts, bytes and stops its table of commands stands for, including data blocks repeated for a list of addresses, in order, nothing else and nothing twice, at whatever pace the master takes them; a delay command holds everything for 2^(16+d) cycles.",
"every table built from the documented commands, every pattern of ready signals, any length of run",
"three nested read pointers walk the table; tests do not run this module at all",
["fpga/lib/eth/example/HTG9200/fpga_25g/pll/si5341_i2c_init.py:120-585"])
p("C118","Time distribution: the sink follows the source",
"A PtpTdSink on the line of a PtpTdSource has, at most six messages after the last call of a setter, the source's time of day, relative time, period and drift of 239 + td_delay edges ago, to the last bit of the fraction, and keeps them; whatever both had before.",
"every period, drift, time and td_delay from 1 to 256, every state of both clocks at the start, any sequence of setters, any length of run",
"the time is sent in messages of 238 edges of which three kinds alternate; that the drift counters agree shows only in the lowest bits after long runs, and the tests compare within a tolerance",
["fpga/lib/eth/tb/ptp_td.py:37-353", "fpga/lib/eth/tb/ptp_td.py:355-604"])
p("C119","Time distribution source keeps time",
"After n edges without a setter, both times of the source have advanced by n periods and one drift correction in drift_denom edges; nanoseconds stay below 10^9, the relative time counts modulo 2^80 units of 2^-32 ns.",
"every period and drift, every number of edges",
"the seconds roll over after 10^8 edges and the drift shows only in the long run",
["fpga/lib/eth/tb/ptp_td.py:92-122", "fpga/lib/eth/tb/ptp_td.py:222-253"])
p("C120","Time distribution: offsets between relative time and time of day",
"The offset received, added to the relative time of any later moment, gives the nanoseconds of the time of day within the second in which it was computed, and the alternate offset within the second it was sent with, which is the one before or after; the sink holds offsets that are less than 768 edges old.",
"every state of the clock, any later moment, any length of run",
"offsets wrap modulo 2^32 and change their meaning when the second rolls over",
["fpga/lib/eth/tb/ptp_td.py:255-266", "fpga/lib/eth/tb/ptp_td.py:296-316", "fpga/lib/eth/tb/ptp_td.py:525-561"])
p("C121","PCIe link loses nothing",
"Every packet handed to Port.send arrives at the connected port exactly once, not before its time on the wire and the delay of the link have passed, and not later than a single wire that carries one packet after the other would deliver the last of them; whatever generators call send at whatever times, also at once.",
"every sequence of calls, every order in which the simulator runs generators due at the same time, every packet size, any length of run",
"the order of generators within a time step is the simulator's choice, and a lost packet needs a call in the very step in which the transmitter finds its queue empty",
["fpga/lib/pcie/tb/pcie.py:724-790"])
p("C122","PCIe link keeps order and time",
"As long as no call of Port.send begins while another is between its test of tx_scheduled and its assignment, packets arrive in the order they were sent, each exactly at the time at which a wire that carries one packet at a time would deliver it.",
"every sequence of calls that do not overlap, every order of generators due at the same time, any length of run",
"order depends on the sizes of neighbouring packets and on the scheduling of generators",
["fpga/lib/pcie/tb/pcie.py:762-784", "fpga/lib/pcie/tb/pcie.py:545-547"])
p("C123","Connecting PCIe ports",
"Port.connect succeeds exactly when neither of two different ports is connected; then each is the partner of the other, both run at the lesser of the speeds and widths and with the sum of the delays, and no other port changes. A refused attempt changes nothing.",
"every state of all ports, every pair of ports",
"the two ends are written one after the other and the second can raise after the first has been changed",
["fpga/lib/pcie/tb/pcie.py:742-760"])
p("C124","Limits on builds at a time",
"While build_images.py runs, never more than --parallel tools run at a time, and of them never more than --synth_parallel have not printed the line that begins implementation; also when tasks end with an exception.",
"every number of designs, every pair of limits, every order in which tasks go on and tools print and end",
"the order of events between many tasks and tools cannot be enumerated; permits are returned from two places",
["fpga/build_images.py:110-164", "fpga/build_images.py:382-399"])
p("C125","Every build gets its turn",
"With limits of at least one, the script comes to an end whatever order tools end in: as long as fewer tasks than the limits have ended with an exception, some job can get on until all have ended, in at most five steps each; permits to build are given in the order in which the jobs began, and all are returned at the end.",
"every number of designs, every pair of limits, every order of events",
"that a task is never woken shows only in particular interleavings of releases and acquisitions",
["fpga/build_images.py:110-164", "fpga/build_images.py:382-401"])
p("C126","Builds write different files",
"Designs with different names write different output files, as long as no directory has a hyphen in its name.",
"every prefix and every pair of paths",
"any names of directories may occur",
["fpga/build_images.py:72-88", "fpga/build_images.py:336-377"])
p("C127","Pause lasts for the time in the last frame",
"mac_pause_ctrl_rx asks for a pause of the link, or of a priority, from the frame that gives it a time until that time has been counted while the request is acknowledged, or another frame replaces it; frames that do not name a priority leave it alone; the time that mac_pause_ctrl_tx puts into a frame is the one that is taken out.",
"all sequences of frames, acknowledgements, enables, steps and times, of any length",
"the time of a pause depends on the whole history of ticks and acknowledgements since the last frame",
["fpga/lib/eth/rtl/mac_pause_ctrl_rx.v:133-200", "fpga/lib/eth/rtl/mac_pause_ctrl_tx.v:131-150"])
p("C128","The partner is told when to pause and when to go on",
"mac_pause_ctrl_tx tells the partner what is asked for: once the request has been steady for as long as a frame needs, the last frame handed over asks for a pause just if the request does, for the link and for every priority.",
"all sequences of requests, ready, refresh and enables before",
"a request that changes in the very cycle in which a frame is launched is one case among all histories",
["fpga/lib/eth/rtl/mac_pause_ctrl_tx.v:169-262"])
p("C129","Pause frames are renewed in time",
"While a pause is asked for, the next pause frame is launched at the edge after the refresh time has been counted since the last, and none sooner.",
"all refresh times, steps and patterns of ticks",
"depends on the sum of the steps over any number of edges",
["fpga/lib/eth/rtl/mac_pause_ctrl_tx.v:188-236"])
p("C130","In a time slot exactly its queues are switched on, and then off",
"The commands of tx_scheduler_ctrl_tdma to the transmit scheduler are, slot by slot, the queues whose bit for that slot is set in the queue RAM, all switched on, and then the same queues switched off; slots come in the order in which they began; a write to the queue RAM while lists are made never mixes old and new contents; every queue is switched on and off in turn.",
"every number of queues and slots, all sequences of slot events, RAM writes and stalls",
"lists for slot 0 and the next slot are made ahead while the RAM is written and the slot after may be another one than expected",
["fpga/common/rtl/tx_scheduler_ctrl_tdma.v:201-433"])
p("C131","Queues are switched in time",
"When a slot begins, its queues are on within 3*2^QUEUE_INDEX_WIDTH+4 cycles in which commands are taken; when it ends, all that was on is off within 2*2^QUEUE_INDEX_WIDTH+2 such cycles.",
"every number of queues, every history before, any contents of the queue RAM",
"the bound depends on where the list making stands when the event comes",
["fpga/common/rtl/tx_scheduler_ctrl_tdma.v:227-390"])
p("C132","Beginnings and ends of time slots match",
"tdma_scheduler puts out an end only for a slot that is active, an end with the beginning of a slot that replaces an active one, and as many ends as beginnings but for the slot that is active; a new start or period, a clock step or a reset ends the slot and starts again with the settings given.",
"all registers, inputs and sequences of them",
"settings and clock steps can come in any state of the machine",
["fpga/common/rtl/tdma_scheduler.v:156-371"])
p("C133","Time slots begin and end at the times of the schedule",
"With locked low tdma_scheduler puts out nothing. With locked high a slot begins exactly in the cycle in which the clock passes start + j*timeslot period, with index j modulo the number of slots in a period, is active exactly for the active period, and a schedule begins with every slot of index 0.",
"all starts, periods, clock rates and numbers of cycles, if a period is a whole number of slots and a slot longer than seven cycles",
"next times are computed by sums in several cycles, with carries between nanoseconds and seconds, while the clock runs on",
["fpga/common/rtl/tdma_scheduler.v:190-290"])
p("C134","The schedule is taken up, whenever it began",
"With a start ahead, locked comes exactly with the second period; with a start in the past the machine catches up, in a number of cycles proportional to the time since then, and is locked within one period after.",
"all starts, periods and clock rates as in C133, however long ago the start is",
"the number of steps to catch up is unbounded",
["fpga/common/rtl/tdma_scheduler.v:190-290"])
p("C135","Control frames are merged with the data stream",
"The output of mac_ctrl_tx is at all times made of the data transfers accepted, in order and unchanged, and for each accepted request one control frame of 60 bytes with the fields of the request, padded with zeros, in order and never inside of a data frame; with a sink that is ready, no request and no pause, data is accepted in every cycle.",
"all widths of the stream, sizes of the parameters, data, requests that stay until accepted, and behaviours of the sink",
"requests and back pressure can come in any cycle of a frame",
["fpga/lib/eth/rtl/mac_ctrl_tx.v:141-417"])
p("C136","A pause stops the data between frames",
"While a pause is requested and acknowledged mac_ctrl_tx accepts no data and no data frame is in progress; if it is requested when a data frame ends, no data is accepted after that frame, and the pause is acknowledged after at most one control frame.",
"all sequences of data, requests and pauses, the pause by a four-phase handshake",
"the pause can come at any time in a frame, and control frames go on in a pause",
["fpga/lib/eth/rtl/mac_ctrl_tx.v:186-238"])
p("C137","A control frame waits for one data frame at most",
"From a request to its acceptance mac_ctrl_tx accepts the end of at most one data frame; with a sink that is ready and no data frame in progress the control frame is put out within its cycles and two more.",
"all sequences of data and all lengths of frames",
"the order of requests and data is not bounded",
["fpga/lib/eth/rtl/mac_ctrl_tx.v:186-297"])
p("C138","Control frames are found in the data stream",
"Of all frames of at least 60 bytes that mac_ctrl_rx accepts, exactly those that match the configuration and are not bad are reported, each once, in order, with the fields in their bytes; all frames are passed on unchanged, but those reported are marked bad unless they are to be forwarded.",
"all configurations, widths, frames and behaviours of the sink",
"fields lie across transfers in a way that depends on the width",
["fpga/lib/eth/rtl/mac_ctrl_rx.v:153-443"])
p("C139","A control frame sent is the control frame received",
"For every request the frame put out by mac_ctrl_tx has 60 bytes, and if it matches the configuration of mac_ctrl_rx exactly this request is reported, whatever the width of the stream.",
"all requests, widths and sizes of the parameters",
"the layout is written down twice, in the sender and in the receiver",
["fpga/lib/eth/rtl/mac_ctrl_tx.v:249-287","fpga/lib/eth/rtl/mac_ctrl_rx.v:253-296"])
p("C140","A rising interrupt line runs its handler",
"With edge triggered interrupts the handler of a line runs once for each rising edge of the line: none is lost, and there is no run without a rising edge.",
"all numbers of lines, sequences of values of the signal and interleavings with the handlers",
"edges and handlers interleave in any way",
["fpga/common/tb/mqnic.py:1584-1611","fpga/common/tb/mqnic.py:1761-1769"])
p("C141","AXI-Lite writes store exactly their bytes",
"A list of init_write commands of any lengths and addresses stores each byte at its address modulo the memory size, in order, and changes no other byte; each byte is on an enabled lane of exactly one word; each command is answered once, and with an error exactly if one of its words was.",
"all bus widths, memory sizes that are multiples of it, addresses, data and responses",
"the splitting depends on the alignment of both ends",
["fpga/lib/axi/tb/axil.py:162-231","fpga/lib/axi/tb/axil.py:460-507"])
p("C142","AXI-Lite reads return the bytes of the memory",
"A list of init_read commands returns for each command, in order, the bytes the memory holds at its addresses, with an error exactly if one of its words was answered with one, and leaves nothing over.",
"all bus widths, memory sizes that are multiples of it, addresses, lengths and contents",
"the splitting depends on the alignment of both ends, and answers are matched by order only",
["fpga/lib/axi/tb/axil.py:279-347","fpga/lib/axi/tb/axil.py:510-545"])
p("C143","A frame received is stored as its descriptor says",
"For each descriptor dma_client_axis_sink stores the first len bytes of one frame at the address of the descriptor (rounded down to the lanes), writes nothing else, drops the rest of the frame, and reports the number of bytes stored with the tag of the descriptor; frames and descriptors are matched in order.",
"all widths of stream and RAM, addresses, lengths, frames and lists of descriptors",
"frame lengths, lengths of descriptors and the parts of the RAM word combine",
["fpga/lib/pcie/rtl/dma_client_axis_sink.v:261-466"])
p("C144","The status of a stored frame follows its writes",
"dma_client_axis_sink loses no write command, gives the commands of each segment to the RAM in order, reports the status of descriptors in order and each only after the RAM has completed all of its writes, and reports each of them once the writes are done.",
"all numbers of segments, transfers, and ways in which the RAM takes and completes writes of the segments",
"segments complete at different times, and FIFO limits act with a delay of two cycles",
["fpga/lib/pcie/rtl/dma_client_axis_sink.v:468-525","fpga/lib/pcie/rtl/dma_client_axis_sink.v:553-627"])
p("C145","A frame sent is the bytes its descriptor names",
"For each descriptor, in order, dma_client_axis_source puts out one frame: exactly len bytes of the RAM from the address of the descriptor (rounded down to the lanes), all transfers full but the last, tlast and the status with the tag of the descriptor on the last transfer, the side data of the descriptor on each; a frame stored by dma_client_axis_sink is put out unchanged.",
"all widths of stream and RAM, addresses, lengths, RAM contents and lists of descriptors",
"lengths, addresses and the parts and segments of the RAM word combine; responses of segments arrive separately",
["fpga/lib/pcie/rtl/dma_client_axis_source.v:249-444"])
p("C146","Register writes over AXI-Lite are made once, in order, and answered",
"axil_reg_if makes each write taken from the bus once on the register side, with the address and the data that belong together even if they arrive at different times, keeps them stable while the write is made, gives exactly one response per write and not before the write is over, never loses or repeats an acknowledge, and ends a write without acknowledge after TIMEOUT cycles so that the bus does not hang.",
"all sequences of addresses, data, response ready, wait and acknowledge, all timeouts",
"three bus channels and the register side interleave without bound",
["fpga/lib/axi/rtl/axil_reg_if_wr.v:75-152"])
p("C147","Register reads over AXI-Lite return the data of their address",
"axil_reg_if makes each read taken from the bus once on the register side, with its address stable, gives the data present at its acknowledge to the bus, in order and once, never loses or repeats an acknowledge, and ends a read without acknowledge after TIMEOUT cycles so that the bus does not hang.",
"all sequences of addresses, data ready, register data, wait and acknowledge, all timeouts",
"bus channels and the register side interleave without bound",
["fpga/lib/axi/rtl/axil_reg_if_rd.v:71-132"])
p("C148","Merged pulses are all counted",
"pulse_merge puts out one cycle of pulse for each pulse on each of its inputs, also for pulses in the same cycle or while others are waiting, and no more; count_out is the number still to come.",
"all numbers of inputs, widths and sequences of pulses",
"pulses can pile up over any number of cycles",
["fpga/lib/pcie/rtl/pulse_merge.v:48-77"])
p("C149","Received frames carry the time of their first transfer",
"mac_ts_insert passes all transfers on in order, each once, with data, tlast and user field unchanged, and every transfer of a frame carries the time at which the first transfer of that frame was taken, whatever pauses and stalls there are inside or between frames.",
"all sequences of transfers, pauses, stalls and times",
"pauses inside frames and stalls combine without bound",
["fpga/common/rtl/mac_ts_insert.v:66-103"])
p("C150","TLPs are routed whole to the port selected",
"pcie_tlp_demux gives each TLP, whole, unchanged and in order, to the highest port its first segment selects and to no other; TLPs that select no port or are to be dropped vanish as a whole, and segments outside of TLPs go nowhere; nothing is lost or repeated whatever the stalls of the ports, and the input is not held up once every port has been ready.",
"all numbers of ports and segments, TLP lengths, several TLPs in a cycle, and stalls",
"TLPs start and end at any segment while ports stall independently",
["fpga/lib/pcie/rtl/pcie_tlp_demux.v:154-156","fpga/lib/pcie/rtl/pcie_tlp_demux.v:245-330"])
p("C151","The long pipeline loses nothing, whatever its length",
"axis_pipeline_fifo puts out what it takes, in order, nothing lost or repeated, whatever its LENGTH and however input and output pause, although its ready reaches the input LENGTH cycles late; everything taken comes out once the output is ready for long enough; and with an output always ready it takes one transfer per cycle.",
"all LENGTH > 0 and all sequences of input and output stalls",
"the FIFO must hold all that is in flight when ready goes low; a wrong size shows only for some lengths and stall patterns",
["fpga/lib/axis/rtl/axis_pipeline_fifo.v:88-145","fpga/lib/axis/rtl/axis_pipeline_fifo.v:155-245","fpga/common/rtl/mqnic_port_tx.v"])
p("C152","Each transceiver register access is done once and its answer returned",
"With rb_drp, software that writes the address, data and control registers only while the enable bit reads 0 gets exactly one access on the port, in the other clock domain, for each control write with the enable bit, with the address, data and direction written; once the enable bit reads 0 again the access was answered and the data register holds the answer; and this happens after a bounded number of edges of both clocks and the answer of the port.",
"all relations of the two clocks, interleavings of their edges, register writes and times the port takes to answer",
"the handshake crosses two unrelated clocks; simulations try few phase relations",
["fpga/common/rtl/rb_drp.v:89-118","fpga/common/rtl/rb_drp.v:131-229"])
p("C153","A transceiver register access that reports success is the one asked for",
"When drp_rb_reg_read of the utilities returns 0, the value is the answer of the port to one access of the address asked for, made during the call; when drp_rb_reg_write returns 0, the port has done one write with the address and data given.",
"all relations of the clocks, times between register accesses, answer times of the port, and histories of accesses",
"needs the utilities, the register block and a port in another clock domain together, with accesses slower than the polling",
["utils/drp.c:9-29","fpga/common/rtl/rb_drp.v:131-229"])
p("C154","Transceiver fields and tables change nothing else",
"A masked write of the transceiver utilities that succeeds makes the field read back as written, and whether it succeeds or not changes no other bit and no other register; a table of fields that is written with success leaves every entry not overlapped by a later one readable as written, and never changes a bit no entry covers; registers of different channels and of the PLLs never coincide.",
"all register contents, masks, shifts, values, tables and failures of accesses",
"tables have dozens of fields; interference shows only with particular contents or after a failed access",
["utils/xcvr_gt.c:17-129","utils/xcvr_gt.h:39-44"])
p("C155","Flow control credits of TLPs are counted right",
"pcie_tlp_fc_count puts out, for each cycle, the number of headers and of data credits (one for four words or part of it) of the posted, non-posted and completion TLPs that begin in that cycle and are taken.",
"all types of TLPs, lengths, numbers of TLPs in a cycle and positions",
"30 types of TLPs, 1024 lengths and several segments; a wrong count shows as an overrun of a buffer much later",
["fpga/lib/pcie/rtl/pcie_tlp_fc_count.v:77-116","fpga/lib/pcie/rtl/pcie_tlp_fc_count.v:137-186"])
p("C156","A transceiver preset gives the same registers whatever was loaded before",
"After a preset is loaded, with 0 returned, the fields of the transceiver named in its tables have the values of the tables, other bits are unchanged, and the registers do not depend on the presets loaded before it.",
"all types of transceivers, presets, sequences of presets loaded before and initial register contents",
"every pair of presets would have to be tried on each type of transceiver; a field that one preset sets and another forgets shows as a link with bit errors after a change of speed only",
["utils/xcvr_gtye3.c:432-497","utils/xcvr_gtye4.c:436-501","utils/xcvr_gthe3.c:358-383","utils/xcvr_gthe4.c:340-365","utils/xcvr_gt.c:115-129"])
p("C157","Every output of the broadcaster gets every beat once and in order",
"axis_broadcast gives every output exactly the beats taken from the input, in order, with at most two inside; outputs may take a beat in different cycles, no output gets more than one beat ahead of another, and a beat not taken stays offered unchanged.",
"all numbers of outputs, beats and patterns of ready of each output and valid of the input",
"the patterns of ready of several outputs over time cannot be enumerated; a beat given twice to a fast output needs a particular interleaving with a slow one",
["fpga/lib/axis/rtl/axis_broadcast.v:91-190"])
p("C158","The stream demultiplexer gives each frame to the output chosen at its first beat",
"axis_demux gives each output exactly the beats of the frames for which it was chosen at the first beat, in order, with at most two inside; frames to be dropped are taken from the input without waiting for the outputs and no beat of another frame is lost by it.",
"all numbers of outputs, sequences of frames and choices, and patterns of ready, valid and enable",
"a dropped frame makes the input ready without looking at the outputs; whether a beat can be lost by it depends on the interleaving of the frames with stalls of the outputs",
["fpga/lib/axis/rtl/axis_demux.v:116-299"])
p("C159","Frames from the stream tap are whole or marked",
"axis_tap puts out, for the frames of the monitored stream, whole copies, or a beginning of a frame ended by a beat marked bad, or nothing; a frame during which the output is ready, with no frame cut off before it still to be ended, is put out whole.",
"all monitored streams and patterns of ready of the output",
"what is put out depends on the cycles in which the output stalls relative to the beats of the frames, over several frames",
["fpga/lib/axis/rtl/axis_tap.v:106-229"])
p("C160","Short frames are padded with zeros to 60 bytes for the 100G MAC",
"cmac_pad gives out as many frames as it takes, each with the bytes of the frame taken, followed by zeros up to 60 bytes if it is shorter; longer frames are unchanged.",
"all sequences of frames of any lengths and contents, data in unused lanes, gaps and stalls",
"lengths, stale data in unused lanes and stalls at the start of a frame cannot be tried in all combinations; stale data leaking into padding is not seen by a test that compares payload only",
["fpga/common/rtl/cmac_pad.v:62-87"])
p("C161","Frames pass between AXI stream and Avalon stream unchanged",
"axis2avst gives out beats with the bytes in the order of the Avalon stream, the number of empty bytes, and start and end of packets on the first and last beats; avst2axis after it gives back the same beats.",
"all widths, beats, lengths of the last beat and sequences of frames, with and without reversal of bytes",
"the number of empty bytes and the order of lanes depend on the width and the length together; simulation uses a few widths",
["fpga/common/rtl/axis2avst.v:63-109","fpga/common/rtl/avst2axis.v:63-83"])
p("C162","The LED shift register comes to show the LEDs",
"Whatever the LEDs did before, also during a pass, once they keep their values the board shows them within two passes, each LED at its place; when the driver is at rest the board shows the present LEDs.",
"all numbers of LEDs, sequences of values, moments of change and patterns of the clock prescaler, with and without reversal and inversion",
"a change in the middle of a pass gives a mixed pattern that must be followed by another pass; the moment of the change relative to the pass matters",
["fpga/common/rtl/led_sreg_driver.v:61-157"])
open("/verif/properties.jsonl","w").write("".join(json.dumps(x)+"\n" for x in P))
print(len(P))
