/-!
# The code table of the printed target

Copied from `/repo/aslam_offline_calibration/kalibr/python/kalibr_create_target_pdf:16`.
-/

namespace Kalibr.Printed

/-- `AprilTagCodes.t36h11` (kalibr_create_target_pdf:16): 36 bits, 587 codes. -/
def printed36h11 : List Nat :=
  [0xd5d628584, 0xd97f18b49, 0xdd280910e, 0xe479e9c98, 0xebcbca822, 0xf31dab3ac, 0x56a5d085,
   0x10652e1d4, 0x22b1dfead, 0x265ad0472, 0x34fe91b86, 0x3ff962cd5, 0x43a25329a, 0x474b4385f,
   0x4e9d243e9, 0x5246149ae, 0x5997f5538, 0x683bb6c4c, 0x6be4a7211, 0x7e3158eea, 0x81da494af,
   0x858339a74, 0x8cd51a5fe, 0x9f21cc2d7, 0xa2cabc89c, 0xadc58d9eb, 0xb16e7dfb0, 0xb8c05eb3a,
   0xd25ef139d, 0xd607e1962, 0xe4aba3076, 0x2dde6a3da, 0x43d40c678, 0x5620be351, 0x64c47fa65,
   0x686d7002a, 0x6c16605ef, 0x6fbf50bb4, 0x8d06d39dc, 0x9f53856b5, 0xadf746dc9, 0xbc9b084dd,
   0xd290aa77b, 0xd9e28b305, 0xe4dd5c454, 0xfad2fe6f2, 0x181a8151a, 0x26be42c2e, 0x2e10237b8,
   0x405cd5491, 0x7742eab1c, 0x85e6ac230, 0x8d388cdba, 0x9f853ea93, 0xc41ea2445, 0xcf1973594,
   0x14a34a333, 0x31eacd15b, 0x6c79d2dab, 0x73cbb3935, 0x89c155bd3, 0x8d6a46198, 0x91133675d,
   0xa708d89fb, 0xae5ab9585, 0xb9558a6d4, 0xb98743ab2, 0xd6cec68da, 0x1506bcaef, 0x4becd217a,
   0x4f95c273f, 0x658b649dd, 0xa76c4b1b7, 0xecf621f56, 0x1c8a56a57, 0x3628e92ba, 0x53706c0e2,
   0x5e6b3d231, 0x7809cfa94, 0xe97eead6f, 0x5af40604a, 0x7492988ad, 0xed5994712, 0x5eceaf9ed,
   0x7c1632815, 0xc1a0095b4, 0xe9e25d52b, 0x3a6705419, 0xa8333012f, 0x4ce5704d0, 0x508e60a95,
   0x877476120, 0xa864e950d, 0xea45cfce7, 0x19da047e8, 0x24d4d5937, 0x6e079cc9b, 0x99f2e11d7,
   0x33aa50429, 0x499ff26c7, 0x50f1d3251, 0x66e7754ef, 0x96ad633ce, 0x9a5653993, 0xaca30566c,
   0xc298a790a, 0x8be44b65d, 0xdc68f354b, 0x16f7f919b, 0x4dde0e826, 0xd548cbd9f, 0xe0439ceee,
   0xfd8b1fd16, 0x76521bb7b, 0xd92375742, 0xcab16d40c, 0x730c9dd72, 0xad9ba39c2, 0xb14493f87,
   0x52b15651f, 0x185409cad, 0x77ae2c68d, 0x94f5af4b5, 0xa13bad55, 0x61ea437cd, 0xa022399e2,
   0x203b163d1, 0x7bba8f40e, 0x95bc9442d, 0x41c0b5358, 0x8e9c6cc81, 0xeb549670, 0x9da3a0b51,
   0xd832a67a1, 0xdcd4350bc, 0x4aa05fdd2, 0x60c7bb44e, 0x4b358b96c, 0x67299b45, 0xb9c89b5fa,
   0x6975acaea, 0x62b8f7afa, 0x33567c3d7, 0xbac139950, 0xa5927c62a, 0x5c916e6a4, 0x260ecb7d5,
   0x29b7bbd9a, 0x903205f26, 0xae72270a4, 0x3d2ec51a7, 0x82ea55324, 0x11a6f3427, 0x1ca1c4576,
   0xa40c81aef, 0xbddccd730, 0xe617561e, 0x969317b0f, 0x67f781364, 0x610912f96, 0xb2549fdfc,
   0x6e5aaa6b, 0xb6c475339, 0xc56836a4d, 0x844e351eb, 0x4647f83b4, 0x908a04f5, 0x7f51034c9,
   0xaee537fca, 0x5e92494ba, 0xd445808f4, 0x28d68b563, 0x4d25374b, 0x2bc065f65, 0x96dc3ea0c,
   0x4b2ade817, 0x7c3fd502, 0xe768b5caf, 0x17605cf6c, 0x182741ee4, 0x62846097c, 0x72b5ebf80,
   0x263da6e13, 0xfa841bcb5, 0x7e45e8c69, 0x653c81fa0, 0x7443b5e70, 0xa5234afd, 0x74756f24e,
   0x157ebf02a, 0x82ef46939, 0x80d420264, 0x2aeed3e98, 0xb0a1dd4f8, 0xb5436be13, 0x7b7b4b13b,
   0x1ce80d6d3, 0x16c08427d, 0xee54462dd, 0x1f7644cce, 0x9c7b5cc92, 0xe369138f8, 0x5d5a66e91,
   0x485d62f49, 0xe6e819e94, 0xb1f340eb5, 0x9d198ce2, 0xd60717437, 0x196b856c, 0xf0a6173a5,
   0x12c0e1ec6, 0x62b82d5cf, 0xad154c067, 0xce3778832, 0x6b0a7b864, 0x4c7686694, 0x5058ff3ec,
   0xd5e21ea23, 0x9ff4a76ee, 0x9dd981019, 0x1bad4d30a, 0xc601896d1, 0x973439b48, 0x1ce7431a8,
   0x57a8021d6, 0xf9dba96e6, 0x83a2e4e7c, 0x8ea585380, 0xaf6c0e744, 0x875b73bab, 0xda34ca901,
   0x2ab9727ef, 0xd39f21b9a, 0x8a10b742f, 0x5f8952dba, 0xf8da71ab0, 0xc25f9df96, 0x6f8a5d94,
   0xe42e63e1a, 0xb78409d1b, 0x792229add, 0x5acf8c455, 0x2fc29a9b0, 0xea486237b, 0xb0c9685a0,
   0x1ad748a47, 0x3b4712d5, 0xf29216d30, 0x8dad65e49, 0xa2cf09dd, 0xb5f174c6, 0xe54f57743,
   0xb9cf54d78, 0x4a312a88a, 0x27babc962, 0xb86897111, 0xf2ff6c116, 0x82274bd8a, 0x97023505e,
   0x52d46edd1, 0x585c1f538, 0xbddd00e43, 0x5590b74df, 0x729404a1f, 0x65320855e, 0xd3d4b6956,
   0x7ae374f14, 0x2d7a60e06, 0x315cd9b5e, 0xfd36b4eac, 0xf1df7642b, 0x55db27726, 0x8f15ebc19,
   0x992f8c531, 0x62dea2a40, 0x928275cab, 0x69c263cb9, 0xa774cca9e, 0x266b2110e, 0x1b14acbb8,
   0x624b8a71b, 0x1c539406b, 0x3086d529b, 0x111dd66e, 0x98cd630bf, 0x8b9d1ffdc, 0x72b2f61e7,
   0x9ed9d672b, 0x96cdd15f3, 0x6366c2504, 0x6ca9df73a, 0xa066d60f0, 0xe7a4b8add, 0x8264647ef,
   0xaa195bf81, 0x9a3db8244, 0x14d2df6a, 0xb63265b7, 0x2f010de73, 0x97e774986, 0x248affc29,
   0xfb57dcd11, 0xb1a7e4d9, 0x4bfa2d07d, 0x54e5cdf96, 0x4c15c1c86, 0xcd9c61166, 0x499380b2a,
   0x540308d09, 0x8b63fe66f, 0xc81aeb35e, 0x86fe0bd5c, 0xce2480c2a, 0x1ab29ee60, 0x8048daa15,
   0xdbfeb2d39, 0x567c9858c, 0x2b6edc5bc, 0x2078fca82, 0xadacc22aa, 0xb92486f49, 0x51fac5964,
   0x691ee6420, 0xf63b3e129, 0x39be7e572, 0xda2ce6c74, 0x20cf17a5c, 0xee55f9b6e, 0xfb8572726,
   0xb2c2de548, 0xcaa9bce92, 0xae9182db3, 0x74b6e5bd1, 0x137b252af, 0x51f686881, 0xd672f6c02,
   0x654146ce4, 0xf944bc825, 0xe8327f809, 0x76a73fd59, 0xf79da4cb4, 0x956f8099b, 0x7b5f2655c,
   0xd06b114a6, 0xd0697ca50, 0x27c390797, 0xbc61ed9b2, 0xcc12dd19b, 0xeb7818d2c, 0x92fcecda,
   0x89ded4ea1, 0x256a0ba34, 0xb6948e627, 0x1ef6b1054, 0x8639294a2, 0xeda3780a4, 0x39ee2af1d,
   0xcd257edc5, 0x2d9d6bc22, 0x121d3b47d, 0x37e23f8ad, 0x119f31cf6, 0x2c97f4f09, 0xd502abfe0,
   0x10bc3ca77, 0x53d7190ef, 0x90c3e62a6, 0x7e9ebf675, 0x979ce23d1, 0x27f0c98e9, 0xeafb4ae59,
   0x7ca7fe2bd, 0x1490ca8f6, 0x9123387ba, 0xb3bc73888, 0x3ea87e325, 0x4888964aa, 0xa0188a6b9,
   0xcd383c666, 0x40029a3fd, 0xe1c00ac5c, 0x39e6f2b6e, 0xde664f622, 0xe979a75e8, 0x7c6b4c86c,
   0xfd492e071, 0x8fbb35118, 0x40b4a09b7, 0xaf80bd6da, 0x70e0b2521, 0x2f5c54d93, 0x3f4a118d5,
   0x9c1897b9, 0x79776eac, 0x84b00b17, 0x3a95ad90e, 0x28c544095, 0x39d457c05, 0x7a3791a78,
   0xbb770e22e, 0x9a822bd6c, 0x68a4b1fed, 0xa5fd27b3b, 0xc3995b79, 0xd1519dff1, 0x8e7eee359,
   0xcd3ca50b1, 0xb73b8b793, 0x57aca1c43, 0xec2655277, 0x785a2c1b3, 0x75a07985a, 0xa4b01eb69,
   0xa18a11347, 0xdb1f28ca3, 0x877ec3e25, 0x31f6341b8, 0x1363a3a4c, 0x75d8b9ba, 0x7ae0792a9,
   0xa83a21651, 0x7f08f9fb5, 0xd0cf73a9, 0xb04dcc98e, 0xf65c7b0f8, 0x65ddaf69a, 0x2cf9b86b3,
   0x14cb51e25, 0xf48027b5b, 0xec26ea8b, 0x44bafd45c, 0xb12c7c0c4, 0x959fd9d82, 0xc77c9725a,
   0x48a22d462, 0x8398e8072, 0xec89b05ce, 0xbb682d4c9, 0xe5a86d2ff, 0x358f01134, 0x8556ddcf6,
   0x67584b6e2, 0x11609439f, 0x8488816e, 0xaaf1a2c46, 0xf879898cf, 0x8bbe5e2f7, 0x101eee363,
   0x690f69377, 0xf5bd93cd9, 0xcea4c2bf6, 0x9550be706, 0x2c5b38a60, 0xe72033547, 0x4458b0629,
   0xee8d9ed41, 0xd2f918d72, 0x78dc39fd3, 0x8212636f6, 0x7450a72a7, 0xc4f0cf4c6, 0x367bcddcd,
   0xc1caf8cc6, 0xa7f5b853d, 0x9d536818b, 0x535e021b0, 0xa7eb8729e, 0x422a67b49, 0x929e928a6,
   0x48e8aefcc, 0xa9897393c, 0x5eb81d37e, 0x1e80287b7, 0x34770d903, 0x2eef86728, 0x59266ccb6,
   0x110bba61, 0x1dfd284ef, 0x447439d1b, 0xfece0e599, 0x9309f3703, 0x80764d1dd, 0x353f1e6a0,
   0x2c1c12dcc, 0xc1d21b9d7, 0x457ee453e, 0xd66faf540, 0x44831e652, 0xcfd49a848, 0x9312d4133,
   0x3f097d3ee, 0x8c9ebef7a, 0xa99e29e88, 0xe9fab22c, 0x4e748f4fb, 0xecdee4288, 0xabce5f1d0,
   0xc42f6876c, 0x7ed402ea0, 0xe5c4242c3, 0xd5b2c31ae, 0x286863be6, 0x160444d94, 0x5f0f5808e,
   0xae3d44b2a, 0x9f5c5d109, 0x8ad9316d7, 0x3422ba064, 0x2fed11d56, 0xbea6e3e04, 0x4b029eec,
   0x6deed7435, 0x3718ce17c, 0x55857f5e2, 0x2edac7b62, 0x85d6c512, 0xd6ca88e0f, 0x2b7e1fc69,
   0xa699d5c1b, 0xf05ad74de, 0x4cf5fb56d, 0x5725e07e1, 0x72f18a2de, 0x1cec52609, 0x48534243c,
   0x2523a4d69, 0x35c1b80d1, 0xa4d7338a7, 0xdb1af012, 0xe61a9475d, 0x5df03f91, 0x97ae260bb,
   0x32d627fef, 0xb640f73c2, 0x45a1ac9c6, 0x6a2202de1, 0x57d3e25f2, 0x5aa9f986e, 0xcc859d8a,
   0xe3ec6cca8, 0x54e95e1ae, 0x446887b06, 0x7516732be, 0x3817ac8f5, 0x3e26d938c, 0xaa81bc235,
   0xdf387ca1b, 0xf3a3b3f2, 0xb4bf69677, 0xae21868ed, 0x81e1d2d9d, 0xa0a9ea14c, 0x8eee297a9,
   0x4740c0559, 0xe8b141837, 0xac69e0a3d, 0x9ed83a1e1, 0x5edb55ecb, 0x7340fe81, 0x50dfbc6bf,
   0x4f583508a, 0xcb1fb78bc, 0x4025ced2f, 0x39791ebec, 0x53ee388f1, 0x7d6c0bd23, 0x93a995fbe,
   0x8a41728de, 0x2fe70e053, 0xab3db443a, 0x1364edb05, 0x47b6eeed6, 0x12e71af01, 0x52ff83587,
   0x3a1575dd8, 0x3feaa3564, 0xeacf78ba7, 0x872b94f8, 0xda8ddf9a2, 0x9aa920d2b, 0x1f350ed36,
   0x18a5e861f, 0x2c35b89c3, 0x3347ac48a, 0x7f23e022e, 0x2459068fb, 0xe83be4b73]

end Kalibr.Printed
