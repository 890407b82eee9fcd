import Verif.Tag.Model

/-!
# The code tables shipped with the detector

Copied from `/repo/aslam_offline_calibration/aslam_apriltag2/include/aslam_apriltag2/Tag*.h`.
-/

namespace Kalibr.Tag

/-- `t16h5` (`Tag16h5.h`): 16 bits, 30 codes. -/
def t16h5 : List Nat :=
  [0x231b, 0x2ea5, 0x346a, 0x45b9, 0x79a6, 0x7f6b, 0xb358, 0xe745, 0xfe59, 0x156d, 0x380b,
   0xf0ab, 0xd84, 0x4736, 0x8c72, 0xaf10, 0x93c, 0x93b4, 0xa503, 0x468f, 0xe137, 0x5795, 0xdf42,
   0x1c1d, 0xe9dc, 0x73ad, 0xad5f, 0xd530, 0x7ca, 0xaf2e]

/-- `t16h5_other` (`Tag16h5_other.h`): 16 bits, 30 codes. -/
def t16h5_other : List Nat :=
  [0x231b, 0x2ea5, 0x346a, 0x45b9, 0x6857, 0x7f6b, 0xad93, 0xb358, 0xb91d, 0xe745, 0x156d,
   0xd3d2, 0xdf5c, 0x4736, 0x8c72, 0x5a02, 0xd32b, 0x1867, 0x468f, 0xdc91, 0x4940, 0xa9ed,
   0x2bd5, 0x599a, 0x9009, 0x61f6, 0x3850, 0x8157, 0xbfca, 0x987c]

/-- `t25h7` (`Tag25h7.h`): 25 bits, 242 codes. -/
def t25h7 : List Nat :=
  [0x4b770d, 0x11693e6, 0x1a599ab, 0xc3a535, 0x152aafa, 0xaccd98, 0x1cad922, 0x2c2fad, 0xbb3572,
   0x14a3b37, 0x186524b, 0xc99d4c, 0x23bfea, 0x141cb74, 0x1d0d139, 0x1670aeb, 0x851675,
   0x150334e, 0x6e3ed8, 0xfd449d, 0xaa55ec, 0x1c86176, 0x15e9b28, 0x7ca6b2, 0x147c38b,
   0x1d6c950, 0x8b0e8c, 0x11a1451, 0x1562b65, 0x13f53c8, 0xd58d7a, 0x829ec9, 0xfaccf1,
   0x136e405, 0x7a2f06, 0x10934cb, 0x16a8b56, 0x1a6a26a, 0xf85545, 0x195c2e4, 0x24c8a9,
   0x12bfc96, 0x16813aa, 0x1a42abe, 0x1573424, 0x1044573, 0xb156c2, 0x5e6811, 0x1659bfe,
   0x1d55a63, 0x5bf065, 0xe28667, 0x1e9ba54, 0x17d7c5a, 0x1f5aa82, 0x1a2bbd1, 0x1ae9f9,
   0x1259e51, 0x134062b, 0xe1177a, 0xed07a8, 0x162be24, 0x59128b, 0x1663e8f, 0x1a83cb, 0x45bb59,
   0x189065a, 0x4bb370, 0x16fb711, 0x122c077, 0xeca17a, 0xdbc1f4, 0x88d343, 0x58ac5d, 0xba02e8,
   0x1a1d9d, 0x1c72eec, 0x924bc5, 0xdccab3, 0x886d15, 0x178c965, 0x5bc69a, 0x1716261, 0x174e2cc,
   0x1ed10f4, 0x156aa8, 0x3e2a8a, 0x2752ed, 0x153c651, 0x1741670, 0x765b05, 0x119c0bb,
   0x172a783, 0x4faca1, 0xf31257, 0x12441fc, 0xd3748, 0xc21f15, 0xac5037, 0x180e592, 0x7d3210,
   0xa27187, 0x2beeaf, 0x26ff57, 0x690e82, 0x77765c, 0x1a9e1d7, 0x140be1a, 0x1aa1e3a, 0x1944f5c,
   0x19b5032, 0x169897, 0x1068eb9, 0xf30dbc, 0x106a151, 0x1d53e95, 0x1348cee, 0xcf4fca,
   0x1728bb5, 0xdc1eec, 0x69e8db, 0x16e1523, 0x105fa25, 0x18abb0c, 0xc4275d, 0x6d8e76, 0xe8d6db,
   0xe16fd7, 0x1ac2682, 0x77435b, 0xa359dd, 0x3a9c4e, 0x123919a, 0x1e25817, 0x2a836, 0x1545a4,
   0x1209c8d, 0xbb5f69, 0x1dc1f02, 0x5d5f7e, 0x12d0581, 0x13786c2, 0xe15409, 0x1aa3599,
   0x139aad8, 0xb09d2a, 0x54488f, 0x13c351c, 0x976079, 0xb25b12, 0x1addb34, 0x1cb23ae,
   0x1175738, 0x1303bb8, 0xd47716, 0x188ceea, 0xbaf967, 0x1226d39, 0x135e99b, 0x34adc5,
   0x2e384d, 0x90d3fa, 0x232713, 0x17d49b1, 0xaa84d6, 0xc2ddf8, 0x1665646, 0x4f345f, 0x2276b1,
   0x1255dd7, 0x16f4ccc, 0x4aaffc, 0xc46da6, 0x85c7b3, 0x1311fcb, 0x9c6c4f, 0x187d947, 0x8578e4,
   0xe2bf0b, 0xa01b4c, 0xa1493b, 0x7ad766, 0xccfe82, 0x1981b5b, 0x1cacc85, 0x562cdb, 0x15b0e78,
   0x8f66c5, 0x3332bf, 0x12ce754, 0x96a76, 0x1d5e3ba, 0x27ea41, 0x14412df, 0x67b9b4, 0xdaa51a,
   0x1dcb17, 0x4d4afd, 0x6335d5, 0xee2334, 0x17d4e55, 0x1b8b0f0, 0x14999e3, 0x1513dfa, 0x765cf2,
   0x56af90, 0x12e16ac, 0x1d3d86c, 0xff279b, 0x18822dd, 0x99d478, 0x8dc0d2, 0x34b666, 0xcf9526,
   0x186443d, 0x7a8e29, 0x19c6aa5, 0x1f2a27d, 0x12b2136, 0xd0cd0d, 0x12cb320, 0x17ddb0b,
   0x5353b, 0x15b2caf, 0x1e5a507, 0x120f1e5, 0x114605a, 0x14efe4c, 0x568134, 0x11b9f92,
   0x174d2a7, 0x692b1d, 0x39e4fe, 0xaaff3d, 0x96224c, 0x13c9f77, 0x110ee8f, 0xf17bea, 0x99fb5d,
   0x337141, 0x2b54d, 0x1233a70]

/-- `t25h9` (`Tag25h9.h`): 25 bits, 35 codes. -/
def t25h9 : List Nat :=
  [0x155cbf1, 0x1e4d1b6, 0x17b0b68, 0x1eac9cd, 0x12e14ce, 0x3548bb, 0x7757e6, 0x1065dab,
   0x1baa2e7, 0xdea688, 0x81d927, 0x51b241, 0xdbc8ae, 0x1e50e19, 0x15819d2, 0x16d8282,
   0x163e035, 0x9d9b81, 0x173eec4, 0xae3a09, 0x5f7c51, 0x1a137fc, 0xdc9562, 0x1802e45,
   0x1c3542c, 0x870fa4, 0x914709, 0x16684f0, 0xc8f2a5, 0x833ebb, 0x59717f, 0x13cd050, 0xfa0ad1,
   0x1b763b0, 0xb991ce]

/-- `t36h11` (`Tag36h11.h`): 36 bits, 587 codes. -/
def t36h11 : List Nat :=
  [0xd5d628584, 0xd97f18b49, 0xdd280910e, 0xe479e9c98, 0xebcbca822, 0xf31dab3ac, 0x56a5d085,
   0x10652e1d4, 0x22b1dfead, 0x265ad0472, 0x34fe91b86, 0x3ff962cd5, 0x43a25329a, 0x474b4385f,
   0x4e9d243e9, 0x5246149ae, 0x5997f5538, 0x683bb6c4c, 0x6be4a7211, 0x7e3158eea, 0x81da494af,
   0x858339a74, 0x8cd51a5fe, 0x9f21cc2d7, 0xa2cabc89c, 0xadc58d9eb, 0xb16e7dfb0, 0xb8c05eb3a,
   0xd25ef139d, 0xd607e1962, 0xe4aba3076, 0x2dde6a3da, 0x43d40c678, 0x5620be351, 0x64c47fa65,
   0x686d7002a, 0x6c16605ef, 0x6fbf50bb4, 0x8d06d39dc, 0x9f53856b5, 0xadf746dc9, 0xbc9b084dd,
   0xd290aa77b, 0xd9e28b305, 0xe4dd5c454, 0xfad2fe6f2, 0x181a8151a, 0x26be42c2e, 0x2e10237b8,
   0x405cd5491, 0x7742eab1c, 0x85e6ac230, 0x8d388cdba, 0x9f853ea93, 0xc41ea2445, 0xcf1973594,
   0x14a34a333, 0x31eacd15b, 0x6c79d2dab, 0x73cbb3935, 0x89c155bd3, 0x8d6a46198, 0x91133675d,
   0xa708d89fb, 0xae5ab9585, 0xb9558a6d4, 0xb98743ab2, 0xd6cec68da, 0x1506bcaef, 0x4becd217a,
   0x4f95c273f, 0x658b649dd, 0xa76c4b1b7, 0xecf621f56, 0x1c8a56a57, 0x3628e92ba, 0x53706c0e2,
   0x5e6b3d231, 0x7809cfa94, 0xe97eead6f, 0x5af40604a, 0x7492988ad, 0xed5994712, 0x5eceaf9ed,
   0x7c1632815, 0xc1a0095b4, 0xe9e25d52b, 0x3a6705419, 0xa8333012f, 0x4ce5704d0, 0x508e60a95,
   0x877476120, 0xa864e950d, 0xea45cfce7, 0x19da047e8, 0x24d4d5937, 0x6e079cc9b, 0x99f2e11d7,
   0x33aa50429, 0x499ff26c7, 0x50f1d3251, 0x66e7754ef, 0x96ad633ce, 0x9a5653993, 0xaca30566c,
   0xc298a790a, 0x8be44b65d, 0xdc68f354b, 0x16f7f919b, 0x4dde0e826, 0xd548cbd9f, 0xe0439ceee,
   0xfd8b1fd16, 0x76521bb7b, 0xd92375742, 0xcab16d40c, 0x730c9dd72, 0xad9ba39c2, 0xb14493f87,
   0x52b15651f, 0x185409cad, 0x77ae2c68d, 0x94f5af4b5, 0xa13bad55, 0x61ea437cd, 0xa022399e2,
   0x203b163d1, 0x7bba8f40e, 0x95bc9442d, 0x41c0b5358, 0x8e9c6cc81, 0xeb549670, 0x9da3a0b51,
   0xd832a67a1, 0xdcd4350bc, 0x4aa05fdd2, 0x60c7bb44e, 0x4b358b96c, 0x67299b45, 0xb9c89b5fa,
   0x6975acaea, 0x62b8f7afa, 0x33567c3d7, 0xbac139950, 0xa5927c62a, 0x5c916e6a4, 0x260ecb7d5,
   0x29b7bbd9a, 0x903205f26, 0xae72270a4, 0x3d2ec51a7, 0x82ea55324, 0x11a6f3427, 0x1ca1c4576,
   0xa40c81aef, 0xbddccd730, 0xe617561e, 0x969317b0f, 0x67f781364, 0x610912f96, 0xb2549fdfc,
   0x6e5aaa6b, 0xb6c475339, 0xc56836a4d, 0x844e351eb, 0x4647f83b4, 0x908a04f5, 0x7f51034c9,
   0xaee537fca, 0x5e92494ba, 0xd445808f4, 0x28d68b563, 0x4d25374b, 0x2bc065f65, 0x96dc3ea0c,
   0x4b2ade817, 0x7c3fd502, 0xe768b5caf, 0x17605cf6c, 0x182741ee4, 0x62846097c, 0x72b5ebf80,
   0x263da6e13, 0xfa841bcb5, 0x7e45e8c69, 0x653c81fa0, 0x7443b5e70, 0xa5234afd, 0x74756f24e,
   0x157ebf02a, 0x82ef46939, 0x80d420264, 0x2aeed3e98, 0xb0a1dd4f8, 0xb5436be13, 0x7b7b4b13b,
   0x1ce80d6d3, 0x16c08427d, 0xee54462dd, 0x1f7644cce, 0x9c7b5cc92, 0xe369138f8, 0x5d5a66e91,
   0x485d62f49, 0xe6e819e94, 0xb1f340eb5, 0x9d198ce2, 0xd60717437, 0x196b856c, 0xf0a6173a5,
   0x12c0e1ec6, 0x62b82d5cf, 0xad154c067, 0xce3778832, 0x6b0a7b864, 0x4c7686694, 0x5058ff3ec,
   0xd5e21ea23, 0x9ff4a76ee, 0x9dd981019, 0x1bad4d30a, 0xc601896d1, 0x973439b48, 0x1ce7431a8,
   0x57a8021d6, 0xf9dba96e6, 0x83a2e4e7c, 0x8ea585380, 0xaf6c0e744, 0x875b73bab, 0xda34ca901,
   0x2ab9727ef, 0xd39f21b9a, 0x8a10b742f, 0x5f8952dba, 0xf8da71ab0, 0xc25f9df96, 0x6f8a5d94,
   0xe42e63e1a, 0xb78409d1b, 0x792229add, 0x5acf8c455, 0x2fc29a9b0, 0xea486237b, 0xb0c9685a0,
   0x1ad748a47, 0x3b4712d5, 0xf29216d30, 0x8dad65e49, 0xa2cf09dd, 0xb5f174c6, 0xe54f57743,
   0xb9cf54d78, 0x4a312a88a, 0x27babc962, 0xb86897111, 0xf2ff6c116, 0x82274bd8a, 0x97023505e,
   0x52d46edd1, 0x585c1f538, 0xbddd00e43, 0x5590b74df, 0x729404a1f, 0x65320855e, 0xd3d4b6956,
   0x7ae374f14, 0x2d7a60e06, 0x315cd9b5e, 0xfd36b4eac, 0xf1df7642b, 0x55db27726, 0x8f15ebc19,
   0x992f8c531, 0x62dea2a40, 0x928275cab, 0x69c263cb9, 0xa774cca9e, 0x266b2110e, 0x1b14acbb8,
   0x624b8a71b, 0x1c539406b, 0x3086d529b, 0x111dd66e, 0x98cd630bf, 0x8b9d1ffdc, 0x72b2f61e7,
   0x9ed9d672b, 0x96cdd15f3, 0x6366c2504, 0x6ca9df73a, 0xa066d60f0, 0xe7a4b8add, 0x8264647ef,
   0xaa195bf81, 0x9a3db8244, 0x14d2df6a, 0xb63265b7, 0x2f010de73, 0x97e774986, 0x248affc29,
   0xfb57dcd11, 0xb1a7e4d9, 0x4bfa2d07d, 0x54e5cdf96, 0x4c15c1c86, 0xcd9c61166, 0x499380b2a,
   0x540308d09, 0x8b63fe66f, 0xc81aeb35e, 0x86fe0bd5c, 0xce2480c2a, 0x1ab29ee60, 0x8048daa15,
   0xdbfeb2d39, 0x567c9858c, 0x2b6edc5bc, 0x2078fca82, 0xadacc22aa, 0xb92486f49, 0x51fac5964,
   0x691ee6420, 0xf63b3e129, 0x39be7e572, 0xda2ce6c74, 0x20cf17a5c, 0xee55f9b6e, 0xfb8572726,
   0xb2c2de548, 0xcaa9bce92, 0xae9182db3, 0x74b6e5bd1, 0x137b252af, 0x51f686881, 0xd672f6c02,
   0x654146ce4, 0xf944bc825, 0xe8327f809, 0x76a73fd59, 0xf79da4cb4, 0x956f8099b, 0x7b5f2655c,
   0xd06b114a6, 0xd0697ca50, 0x27c390797, 0xbc61ed9b2, 0xcc12dd19b, 0xeb7818d2c, 0x92fcecda,
   0x89ded4ea1, 0x256a0ba34, 0xb6948e627, 0x1ef6b1054, 0x8639294a2, 0xeda3780a4, 0x39ee2af1d,
   0xcd257edc5, 0x2d9d6bc22, 0x121d3b47d, 0x37e23f8ad, 0x119f31cf6, 0x2c97f4f09, 0xd502abfe0,
   0x10bc3ca77, 0x53d7190ef, 0x90c3e62a6, 0x7e9ebf675, 0x979ce23d1, 0x27f0c98e9, 0xeafb4ae59,
   0x7ca7fe2bd, 0x1490ca8f6, 0x9123387ba, 0xb3bc73888, 0x3ea87e325, 0x4888964aa, 0xa0188a6b9,
   0xcd383c666, 0x40029a3fd, 0xe1c00ac5c, 0x39e6f2b6e, 0xde664f622, 0xe979a75e8, 0x7c6b4c86c,
   0xfd492e071, 0x8fbb35118, 0x40b4a09b7, 0xaf80bd6da, 0x70e0b2521, 0x2f5c54d93, 0x3f4a118d5,
   0x9c1897b9, 0x79776eac, 0x84b00b17, 0x3a95ad90e, 0x28c544095, 0x39d457c05, 0x7a3791a78,
   0xbb770e22e, 0x9a822bd6c, 0x68a4b1fed, 0xa5fd27b3b, 0xc3995b79, 0xd1519dff1, 0x8e7eee359,
   0xcd3ca50b1, 0xb73b8b793, 0x57aca1c43, 0xec2655277, 0x785a2c1b3, 0x75a07985a, 0xa4b01eb69,
   0xa18a11347, 0xdb1f28ca3, 0x877ec3e25, 0x31f6341b8, 0x1363a3a4c, 0x75d8b9ba, 0x7ae0792a9,
   0xa83a21651, 0x7f08f9fb5, 0xd0cf73a9, 0xb04dcc98e, 0xf65c7b0f8, 0x65ddaf69a, 0x2cf9b86b3,
   0x14cb51e25, 0xf48027b5b, 0xec26ea8b, 0x44bafd45c, 0xb12c7c0c4, 0x959fd9d82, 0xc77c9725a,
   0x48a22d462, 0x8398e8072, 0xec89b05ce, 0xbb682d4c9, 0xe5a86d2ff, 0x358f01134, 0x8556ddcf6,
   0x67584b6e2, 0x11609439f, 0x8488816e, 0xaaf1a2c46, 0xf879898cf, 0x8bbe5e2f7, 0x101eee363,
   0x690f69377, 0xf5bd93cd9, 0xcea4c2bf6, 0x9550be706, 0x2c5b38a60, 0xe72033547, 0x4458b0629,
   0xee8d9ed41, 0xd2f918d72, 0x78dc39fd3, 0x8212636f6, 0x7450a72a7, 0xc4f0cf4c6, 0x367bcddcd,
   0xc1caf8cc6, 0xa7f5b853d, 0x9d536818b, 0x535e021b0, 0xa7eb8729e, 0x422a67b49, 0x929e928a6,
   0x48e8aefcc, 0xa9897393c, 0x5eb81d37e, 0x1e80287b7, 0x34770d903, 0x2eef86728, 0x59266ccb6,
   0x110bba61, 0x1dfd284ef, 0x447439d1b, 0xfece0e599, 0x9309f3703, 0x80764d1dd, 0x353f1e6a0,
   0x2c1c12dcc, 0xc1d21b9d7, 0x457ee453e, 0xd66faf540, 0x44831e652, 0xcfd49a848, 0x9312d4133,
   0x3f097d3ee, 0x8c9ebef7a, 0xa99e29e88, 0xe9fab22c, 0x4e748f4fb, 0xecdee4288, 0xabce5f1d0,
   0xc42f6876c, 0x7ed402ea0, 0xe5c4242c3, 0xd5b2c31ae, 0x286863be6, 0x160444d94, 0x5f0f5808e,
   0xae3d44b2a, 0x9f5c5d109, 0x8ad9316d7, 0x3422ba064, 0x2fed11d56, 0xbea6e3e04, 0x4b029eec,
   0x6deed7435, 0x3718ce17c, 0x55857f5e2, 0x2edac7b62, 0x85d6c512, 0xd6ca88e0f, 0x2b7e1fc69,
   0xa699d5c1b, 0xf05ad74de, 0x4cf5fb56d, 0x5725e07e1, 0x72f18a2de, 0x1cec52609, 0x48534243c,
   0x2523a4d69, 0x35c1b80d1, 0xa4d7338a7, 0xdb1af012, 0xe61a9475d, 0x5df03f91, 0x97ae260bb,
   0x32d627fef, 0xb640f73c2, 0x45a1ac9c6, 0x6a2202de1, 0x57d3e25f2, 0x5aa9f986e, 0xcc859d8a,
   0xe3ec6cca8, 0x54e95e1ae, 0x446887b06, 0x7516732be, 0x3817ac8f5, 0x3e26d938c, 0xaa81bc235,
   0xdf387ca1b, 0xf3a3b3f2, 0xb4bf69677, 0xae21868ed, 0x81e1d2d9d, 0xa0a9ea14c, 0x8eee297a9,
   0x4740c0559, 0xe8b141837, 0xac69e0a3d, 0x9ed83a1e1, 0x5edb55ecb, 0x7340fe81, 0x50dfbc6bf,
   0x4f583508a, 0xcb1fb78bc, 0x4025ced2f, 0x39791ebec, 0x53ee388f1, 0x7d6c0bd23, 0x93a995fbe,
   0x8a41728de, 0x2fe70e053, 0xab3db443a, 0x1364edb05, 0x47b6eeed6, 0x12e71af01, 0x52ff83587,
   0x3a1575dd8, 0x3feaa3564, 0xeacf78ba7, 0x872b94f8, 0xda8ddf9a2, 0x9aa920d2b, 0x1f350ed36,
   0x18a5e861f, 0x2c35b89c3, 0x3347ac48a, 0x7f23e022e, 0x2459068fb, 0xe83be4b73]

/-- `t36h11_other` (`Tag36h11_other.h`): 36 bits, 593 codes. -/
def t36h11_other : List Nat :=
  [0xd5d628584, 0xd97f18b49, 0xdd280910e, 0xe479e9c98, 0xebcbca822, 0xf31dab3ac, 0x56a5d085,
   0x10652e1d4, 0x17b70ed5e, 0x22b1dfead, 0x265ad0472, 0x34fe91b86, 0x3ff962cd5, 0x43a25329a,
   0x474b4385f, 0x4e9d243e9, 0x5246149ae, 0x5997f5538, 0x683bb6c4c, 0x6be4a7211, 0x7e3158eea,
   0x81da494af, 0x858339a74, 0x8cd51a5fe, 0x9f21cc2d7, 0xa2cabc89c, 0xadc58d9eb, 0xb16e7dfb0,
   0xb8c05eb3a, 0xd25ef139d, 0xd607e1962, 0xe4aba3076, 0x2dde6a3da, 0x43d40c678, 0x5620be351,
   0x64c47fa65, 0x686d7002a, 0x6c16605ef, 0x6fbf50bb4, 0x8d06d39dc, 0x9baa950f0, 0x9f53856b5,
   0xadf746dc9, 0xbc9b084dd, 0xd290aa77b, 0xd9e28b305, 0xe4dd5c454, 0xfad2fe6f2, 0x181a8151a,
   0x26be42c2e, 0x2e10237b8, 0x405cd5491, 0x6ff109f92, 0x7742eab1c, 0x85e6ac230, 0x8d388cdba,
   0x9f853ea93, 0xc41ea2445, 0xcf1973594, 0x14a34a333, 0x31eacd15b, 0x44377ee34, 0x6c79d2dab,
   0x73cbb3935, 0x89c155bd3, 0x8d6a46198, 0x91133675d, 0xa708d89fb, 0xae5ab9585, 0xb9558a6d4,
   0xb98743ab2, 0xd6cec68da, 0x1506bcaef, 0x4becd217a, 0x4f95c273f, 0x658b649dd, 0xa76c4b1b7,
   0xecf621f56, 0x1c8a56a57, 0x3628e92ba, 0x53706c0e2, 0x7809cfa94, 0xc88e77982, 0xe97eead6f,
   0x5af40604a, 0xffa6463eb, 0x5eceaf9ed, 0x7c1632815, 0xc1a0095b4, 0xe9e25d52b, 0x3a6705419,
   0xa8333012f, 0x4ce5704d0, 0x508e60a95, 0x877476120, 0xa864e950d, 0xea45cfce7, 0x19da047e8,
   0x24d4d5937, 0x54690a438, 0x6e079cc9b, 0x99f2e11d7, 0x499ff26c7, 0x50f1d3251, 0x66e7754ef,
   0x49d1abaa5, 0x96ad633ce, 0x9a5653993, 0xaca30566c, 0x8be44b65d, 0xb4269f5d4, 0xdc68f354b,
   0x4dde0e826, 0xd548cbd9f, 0xfd8b1fd16, 0x76521bb7b, 0xd1d194bb8, 0xd57a8517d, 0xd92375742,
   0xcab16d40c, 0x730c9dd72, 0xad9ba39c2, 0xb14493f87, 0x185409cad, 0x77ae2c68d, 0x94f5af4b5,
   0xa13bad55, 0x61ea437cd, 0xa022399e2, 0xbd69bc80a, 0x203b163d1, 0x7bba8f40e, 0x784358227,
   0xc92b728d1, 0x92a8cfa02, 0x9da3a0b51, 0xdcd4350bc, 0x4aa05fdd2, 0x60c7bb44e, 0x4b358b96c,
   0x612b2dc0a, 0x775289286, 0x7ea469e10, 0x9e9d0d2c, 0x67299b45, 0xb9c89b5fa, 0x9560f1026,
   0x62b8f7afa, 0xbac139950, 0x58b6c4d01, 0xa5927c62a, 0xe77362e04, 0xf29fed331, 0x903205f26,
   0xc36f2afec, 0xae72270a4, 0x3d2ec51a7, 0x82ea55324, 0x1ca1c4576, 0xa40c81aef, 0xbddccd730,
   0xe617561e, 0x585b218fa, 0x969317b0f, 0x588cdacd8, 0x67309c3ec, 0x8c5f2b938, 0x4142f72dd,
   0x6e5aaa6b, 0x626523aa8, 0xb6c475339, 0xc56836a4d, 0x4647f83b4, 0x908a04f5, 0x7862950fb,
   0xd445808f4, 0x28d68b563, 0x4d25374b, 0xc8bd52fc0, 0x6f5491d5, 0x27e5bc5c2, 0x2bc065f65,
   0x96dc3ea0c, 0xfdb9fb354, 0x47b3a7630, 0xd7372a6ab, 0x372678c25, 0xe768b5caf, 0x437d5a886,
   0x2b091f757, 0x91b522cc1, 0x62846097c, 0x3aa57f1c1, 0x263da6e13, 0xfa841bcb5, 0x157ebf02a,
   0xf586e9f93, 0xecaf0e8ce, 0x82ef46939, 0x847d10829, 0x68919e513, 0x2aeed3e98, 0x11265760c,
   0x1ce80d6d3, 0xe4c1b374, 0x68b0db3e7, 0x1c389627a, 0xfb79dc26b, 0x9379975a4, 0x64ac3391,
   0x706dfdae2, 0x44edfb117, 0x86a4f78c8, 0xaebd61816, 0xf53fd690b, 0xb8f91cda2, 0xf0a6173a5,
   0x12c0e1ec6, 0xd1a6e0664, 0x6bf37b450, 0x62b82d5cf, 0xe5f46d153, 0xd1438d4b, 0x5af82d134,
   0x6ea0ef91f, 0x9ff4a76ee, 0xde5e56ce1, 0xb5c82ed18, 0x5b50f279b, 0xd7f297fa3, 0xef444ad53,
   0xa8c9a5013, 0x3d300e4f1, 0x33fc8fa25, 0x43d277c22, 0x9d2c1d435, 0x5f8952dba, 0xf0cc59103,
   0xd2f779af6, 0xb5e97f461, 0x7f0b3918b, 0xe42e63e1a, 0x769bc1897, 0x97bdee062, 0x792229add,
   0x816ca89bd, 0xd41446335, 0x3f572b065, 0x2a93af8b0, 0xcadde9ac9, 0x7176b93c1, 0x84b15c29b,
   0x9b9f9c88f, 0x537511feb, 0xee8891d4f, 0x5dc83b096, 0x5bd1b4a0, 0x2e073e7cc, 0xb5f174c6,
   0xb184d5e98, 0xd0ef4e74a, 0xddad25b7, 0xbd16e63f6, 0x4aa64f025, 0xa252eda74, 0xd940d24b4,
   0x9745a041b, 0x55322c79, 0x7022f6a83, 0xa31416eac, 0x96b2880f6, 0x48d385322, 0x14d46c8f9,
   0x11e4d63b7, 0x379614f93, 0x71eda5cc5, 0xaa05e1e39, 0xcee09d333, 0x52c976570, 0x23252178,
   0x599fac8f4, 0xbb0a48854, 0x98cd630bf, 0x2d8f6f9a4, 0xf5c05a72d, 0x9ed9d672b, 0x50d8b8ce3,
   0xe59ac55c8, 0xe09d938a6, 0x4ada4f38b, 0xbb85a794e, 0x5544e5f55, 0x9a3db8244, 0xe3784e95d,
   0x796c81d2b, 0x6cebb60a1, 0x27b2d55b4, 0x6de945a0c, 0x4a69d0af9, 0x6afea0adf, 0x158987899,
   0x1b528fb48, 0x6d183275e, 0x73afeed3a, 0x1a7a77a10, 0x4be59d2fe, 0x2ad522b12, 0xa82d445fd,
   0xbbcb59c93, 0xe71e94895, 0x75b14896f, 0xb0afb721a, 0x65d8e6c8, 0x372810d9c, 0xb77603728,
   0xad78c1f44, 0x90ca91da0, 0x2e74184b4, 0xc2964c0aa, 0xb07f7a899, 0x8ee694edd, 0x1ad7caf87,
   0x2035916c5, 0xcd1670631, 0x1611c2a77, 0x8a1a06962, 0xdb970149a, 0x5778c6bb4, 0x3fab695fe,
   0x14b9cc35, 0x604be4377, 0xfd49501f1, 0xe2b710c4d, 0x6bf7f4a88, 0xadf98124, 0xc5ee49ade,
   0xe4c34b0ea, 0x9b5e0047d, 0x4002b5929, 0x4e9a35492, 0x908aedae9, 0xa0bc790ed, 0xd12b583ba,
   0x431b08264, 0xb7b33afc8, 0xd115672f8, 0x253296b16, 0xbd5e4f6ed, 0xf1276fc55, 0x5feaa426b,
   0x2d0955cbf, 0xcb2ade90e, 0x8b0fe749, 0x2709d6730, 0xedc7ec97, 0xa7c74d431, 0x1536402ea,
   0x61936f66d, 0x7ec973bc9, 0xa00a12d3d, 0xc6ed2ccf6, 0x8f87c4b9a, 0xf049ee52b, 0xd1fa9777,
   0x85175a497, 0x2d917c5c5, 0xfc61287b4, 0x63ce55156, 0x659cac663, 0xbb4b8174f, 0x70bd5be0b,
   0xfb3da5f18, 0x917b001e3, 0x516870f16, 0x3bb5ac33, 0x2a510ec0c, 0x7ecd1ae2, 0x6642c91a,
   0xcc7c83662, 0xb88d2c60e, 0x40d35e87e, 0x452f5656e, 0xf8c5e5640, 0xc68372145, 0x6b61cb49e,
   0x66ce5035, 0x151c05dd0, 0xad92f9119, 0x8fa874156, 0xd7d545982, 0x2602c7a8e, 0xd9054ac8,
   0xb85332ce0, 0xa8e7f583c, 0xa2534a713, 0x77ce78732, 0x6b605c6c5, 0x8101603e6, 0x9573cd8f0,
   0xa18bba0ab, 0xf5d224ae1, 0x9ecb4dfd4, 0x2e48c9e03, 0x79b4c6ae0, 0x60e6b0713, 0xea6a8420d,
   0xa22971a8f, 0x605c053fd, 0x57678633a, 0xea85c3395, 0x7fda1da74, 0x9824459ca, 0xb2eee31f2,
   0x4a34b0db1, 0xb5bbbd933, 0x583d9c190, 0xc93e6091c, 0xdca7c6e3b, 0x214d69b74, 0x525894f7f,
   0x21be0e083, 0xf0dbd2784, 0xffac88d9, 0x57f7e33e5, 0x4a7301d85, 0x8887af6f6, 0x1b8ccb3a1,
   0x68c1b2878, 0x78b6bf950, 0x63b9aa851, 0x7ed12f23a, 0x350eb35b2, 0x561503189, 0x3f16ac63c,
   0xd2fd4b06c, 0xa7c49627e, 0x36b9f5d0a, 0xbca21c149, 0xba5bc28ef, 0xce2c2b89c, 0x776bc0448,
   0xce170f268, 0x8f57303c3, 0x74e5fcc9e, 0x46de67b7e, 0x2b98bd7aa, 0xb5c41dc2e, 0x12e1e50f8,
   0x875f6fcda, 0xf90ea702d, 0x7ed051595, 0x9d8da07b8, 0xbc30d09ed, 0x77ad8306b, 0x82d4a0885,
   0xf4e1b7a04, 0xb427eabda, 0xdb1b28f5e, 0xe5f911de5, 0xb8ff4c115, 0x3185fbcf4, 0xefda16bdf,
   0xeaa3f6c63, 0x9a3f4f520, 0x6317c6e21, 0xde1ac8909, 0xb962e4d06, 0x8a8cc1536, 0xabebf2d5,
   0x6a3787f5f, 0x62cc2622f, 0x3196aa59f, 0x9b6816c6b, 0x95f398661, 0x2b1673eb7, 0xc9cf19ba7,
   0x44394782a, 0xd02e2d199, 0xe517f16dc, 0x433df5666, 0xdbfb6521f, 0x6316ed9fb, 0x681b072a,
   0x24e7e3614, 0x3049f22da, 0x245b47d67, 0x32e59d5d, 0x78f512121, 0xf76e98aac, 0x20e313ad6,
   0x9947bd319, 0x719aab9f, 0xabe40e6b2, 0x9bbec96c6, 0xcf05e6446, 0xee3c76b79, 0xe9317cc92,
   0x9bf9aa92b, 0x13fe98495, 0xd931239a6, 0x7264aced9, 0x4ed957b4, 0xbb7021cbb, 0x4609308b5,
   0x2d5c52c38, 0xceb22ad4f, 0x82a47a446, 0x4d68909a, 0x832cdf368, 0x242ed1118, 0xd1dda2014,
   0x901b6a04e, 0x19c1e9514, 0x3e9c0c97f, 0x1e814bce3, 0x55b40b44d, 0xeff162399, 0x4012da58a,
   0x1d4d90e43, 0x50e79facd, 0x35ef088ba, 0x774709d00, 0xd32e575b3, 0x54c5cfff2, 0x59bbd73fb,
   0x3b2dc7e8b, 0x13a74d09f, 0xc5a21e37f, 0x7aab49b28, 0x2793aa17a, 0x3a6673575, 0x78c27371e,
   0x1788da29c, 0x8b5bb6078, 0xa5c506a80, 0xc2c487d6a, 0xf238647ac, 0x601f5e6e2, 0x2db5d412a,
   0xd7c46f24a, 0xe4e0b67f5, 0xe94793093, 0xe07e85846, 0xa04f6f205, 0xe47cbc125, 0x9022fb419,
   0xc2127ead8, 0xc670f0e63, 0xd282518cf, 0x63e8d8335, 0x2aa63408e, 0xb011851aa, 0x2df8c686f,
   0xa31f8c5f1, 0xe8c09cecb, 0x4cd645fb9, 0xa63b5d9f5, 0xd74dd32d6, 0xf6869a32a, 0xb725dae3e,
   0xc5b27c981, 0x67d0118b8, 0xb3fdb04fa, 0xf11838f31, 0x7e73b5fb9, 0x24ec2067a, 0x8aaf3bcea,
   0x4a06dca0, 0x70a03ed6b, 0x70dc29b18, 0x4d75699a9, 0xaedc558d9, 0x62590b9af, 0x5f9258453,
   0xf04a9a9ce, 0xcd1feb280, 0x7300b05a7, 0xadb7ab52c, 0x59afeb236, 0xf1de62e03, 0xf103ba210,
   0x7cf6472d5, 0xf84bf1908, 0xa4952dc03, 0x43d506f47, 0x8e90eed24, 0x9c04974e9, 0x953aef583,
   0x3d839c1bc, 0x348ac64f, 0x2a1284fc1, 0x9fc565ccd, 0x57118e8c4]

end Kalibr.Tag
